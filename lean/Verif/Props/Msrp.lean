/-
C90: the classic analysis of partitioned EDF with the MSRP.
-/
import Verif.Lemmas.MsrpModel
import Verif.Props.Qpa

namespace Verif.SR.Msrp
open Spec

/-! ### The steps of the demand -/

theorem boundDemand_jump {info : Info} {m : ℕ} (hw : Wf info m) (x : Fin info.length) {a b : ℕ}
    (h1 : a < (info.get x).deadline) (h2 : (info.get x).deadline ≤ b) :
    (partition info m (info.get x).cluster).boundDemand a + (system info).inflated m x
      ≤ (partition info m (info.get x).cluster).boundDemand b := by
  rw [boundDemand_partition hw, boundDemand_partition hw]
  exact procDemand_jump (system info) m x h1 h2

theorem partition_pos {info : Info} {m : ℕ} (hw : Wf info m) {k : ℕ} {t : Native.Task}
    (ht : t ∈ partition info m k) : 0 < t.period ∧ 0 < t.deadline := by
  obtain ⟨i, _, _, hp, hd, _⟩ := (mem_partition hw).1 ht
  rw [hp, hd]
  exact ⟨hw.period _ (List.get_mem info i), hw.deadline _ (List.get_mem info i)⟩

theorem exists_task {info : Info} {m : ℕ} (hw : Wf info m) (i : Fin info.length) :
    ∃ t ∈ partition info m (info.get i).cluster, t.deadline = (info.get i).deadline := by
  have hd := hw.deadline _ (List.get_mem info i)
  refine ⟨Native.Task.init ((system info).inflated m i) (info.get i).period (info.get i).deadline,
    (mem_partition hw).2 ⟨i, rfl, rfl, rfl, ?_, rfl⟩, ?_⟩ <;>
  · unfold Native.Task.init
    simp only
    rw [if_neg (by omega)]

/-- Between the largest test point and the limit, no deadline is reached. -/
theorem reached_iff {info : Info} {m : ℕ} (hw : Wf info m) (i : Fin info.length) {M x : ℕ}
    (h1 : Native.largestTestpoint (partition info m (info.get i).cluster) M ≤ x) (h2 : x < M) :
    (info.get i).deadline ≤ x ↔
      (info.get i).deadline ≤ Native.largestTestpoint (partition info m (info.get i).cluster) M := by
  constructor
  · intro h
    obtain ⟨t, ht, he⟩ := exists_task hw i
    rw [← he]
    exact Native.deadline_le_largestTestpoint (fun t ht => (partition_pos hw ht).1) ht (by omega)
  · intro h; omega

/-- The demand with one blocking section. -/
theorem stepDemand_section {info : Info} {m : ℕ} (hw : Wf info m) (i a : Fin info.length)
    (hia : (info.get i).cluster = (info.get a).cluster) {L : ℕ} (hL : L ≤ (system info).inflated m a) :
    Native.StepDemand (partition info m (info.get i).cluster) (fun t =>
      (partition info m (info.get i).cluster).boundDemand t +
        if (info.get i).deadline ≤ t ∧ t < (info.get a).deadline then L else 0) := by
  have hT : ∀ t ∈ partition info m (info.get i).cluster, 0 < t.period :=
    fun t ht => (partition_pos hw ht).1
  refine ⟨fun {x y} hxy => ?_, fun {M x} h1 h2 => ?_, fun {x} hz => ?_⟩
  · have hmono := Native.boundDemand_mono (partition info m (info.get i).cluster) hxy
    beta_reduce
    by_cases h1 : (info.get i).deadline ≤ x ∧ x < (info.get a).deadline
    · rw [if_pos h1]
      by_cases h2 : y < (info.get a).deadline
      · rw [if_pos ⟨by omega, h2⟩]; omega
      · rw [if_neg (fun h => h2 h.2)]
        have := boundDemand_jump hw a h1.2 (not_lt.1 h2)
        rw [← hia] at this
        omega
    · rw [if_neg h1]; omega
  · beta_reduce
    rw [Native.largestTestpoint_const hT M h1 h2]
    have h3 := reached_iff hw i h1 h2
    have h4 := reached_iff hw a (by rw [← hia]; exact h1) h2
    rw [← hia] at h4
    congr 1
    apply if_congr _ rfl rfl
    rw [h3, ← not_le, h4, not_le]
  · beta_reduce
    obtain ⟨t, ht, he⟩ := exists_task hw i
    have := hz t ht
    rw [Native.boundDemand_eq_zero hz, if_neg (by omega)]

theorem isSchedulable_of_loop {info : Info} {m fuel : ℕ} : ∀ {ks : List ℕ},
    clusterLoop fuel info m ks = some true →
    ∀ k ∈ ks, isSchedulable fuel info m k (partition info m k) = some true := by
  intro ks
  induction ks with
  | nil => intro _ k hk; simp at hk
  | cons k' ks ih =>
    intro h k hk
    rw [clusterLoop] at h
    split at h
    · simp at h
    · simp at h
    · rename_i heq
      rcases List.mem_cons.1 hk with rfl | hk
      · exact heq
      · exact ih h k hk

theorem cluster_lt {info : Info} (i : Fin info.length) :
    (info.get i).cluster ∈ List.range (splitByCluster info).length := by
  rw [List.mem_range]
  by_contra h
  have h1 : (splitByCluster info).getD (info.get i).cluster [] = [] := by
    rw [List.getD_eq_getElem?_getD, List.getElem?_eq_none (by omega)]; rfl
  rw [getD_splitByCluster] at h1
  have : ((i : ℕ), info.get i) ∈ (indexed info).filter (fun t => t.2.cluster = (info.get i).cluster) :=
    mem_cluster.2 ⟨by simp, rfl⟩
  rw [h1] at this
  simp at this

theorem procDemand_empty {n : ℕ} {S : LockSystem n} {m p : ℕ} (h : ∀ i, S.proc i ≠ p) (t : ℕ) :
    S.procDemand m p t = 0 := by
  unfold LockSystem.procDemand demand
  apply Finset.sum_eq_zero
  intro i _
  beta_reduce
  rw [if_neg (h i), mul_zero]

/-! ### Runs -/

theorem sum_range_le (f : ℕ → ℕ) (b n : ℕ) (h : ∀ a < n, f a ≤ b) : ∑ a ∈ Finset.range n, f a ≤ n * b := by
  have := Finset.sum_le_card_nsmul (Finset.range n) f b (fun a ha => h a (Finset.mem_range.1 ha))
  simpa using this

theorem longest_ge {n : ℕ} (S : LockSystem n) (i : Fin n) {q : Req} (hq : q ∈ S.reqs i) :
    q.len ≤ S.longest (S.proc i) q.res := by
  have hf : ∀ (l : List ℕ) (x : ℕ), x ∈ l → x ≤ l.foldr max 0 := by
    intro l
    induction l with
    | nil => simp
    | cons y l ih =>
      intro x hx
      rw [List.foldr_cons]
      rcases List.mem_cons.1 hx with rfl | hx
      · exact le_max_left _ _
      · exact (ih x hx).trans (le_max_right _ _)
  unfold LockSystem.longest
  refine le_trans ?_ (Finset.le_sup (f := fun i' => if S.proc i' = S.proc i then
    ((S.reqs i').map (fun q' => if q'.res = q.res then q'.len else 0)).foldr max 0 else 0)
    (Finset.mem_univ i))
  simp only [if_true]
  apply hf
  exact List.mem_map.2 ⟨q, hq, by simp⟩

/-- Spinning in a run of the MSRP is bounded. -/
theorem spin_le_bound {n : ℕ} {S : LockSystem n} {R : LockRun n} (h : SpinRun S R) {m : ℕ}
    (hm : ∀ i, S.proc i < m) {s : Section n} {q : Req} (hi : R.issued s)
    (hq : (S.reqs s.job.1)[s.idx]? = some q) (hg : S.Global q.res) :
    R.acquire s - R.enter s ≤ S.spinBound m s.job.1 q.res := by
  unfold LockSystem.spinBound
  refine h.spin_le hm hi hq hg (fun p => S.longest p q.res) (fun i q' hq' hr => ?_)
  rw [← hr]
  exact longest_ge S i hq'

theorem exec_le_inflated {n : ℕ} {S : LockSystem n} {R : LockRun n} (h : SpinRun S R) {m : ℕ}
    (hm : ∀ i, S.proc i < m) (j : Job n) : R.work.exec j ≤ S.inflated m j.1 := by
  classical
  refine (h.cost j).trans ?_
  unfold LockSystem.inflated LockRun.spin
  apply Nat.add_le_add_left
  have e : ((S.reqs j.1).map (fun q => if S.Global q.res then q.num * S.spinBound m j.1 q.res else 0)).sum
      = ∑ q : Fin (S.reqs j.1).length, if S.Global ((S.reqs j.1).get q).res then
        ((S.reqs j.1).get q).num * S.spinBound m j.1 ((S.reqs j.1).get q).res else 0 := by
    rw [← List.sum_ofFn]
    congr 1
    apply List.ext_getElem <;> simp
  rw [e]
  apply Finset.sum_le_sum
  intro q _
  set q' := (S.reqs j.1).get q with hq'
  have hget : (S.reqs j.1)[(q : ℕ)]? = some q' := by simp [hq']
  split_ifs with hg
  · apply sum_range_le
    intro a _
    split_ifs with hi
    · exact spin_le_bound h hm (s := ⟨j, q, a⟩) hi hget hg
    · exact Nat.zero_le _
  · apply le_of_eq
    apply Finset.sum_eq_zero
    intro a _
    split_ifs with hi
    · have := h.immediate ⟨j, q, a⟩ q' hi hget hg
      omega
    · rfl

theorem section_le_bound {n : ℕ} {S : LockSystem n} {R : LockRun n} (h : SpinRun S R) {m : ℕ}
    (hm : ∀ i, S.proc i < m) {s : Section n} {q : Req} (hi : R.issued s)
    (hq : (S.reqs s.job.1)[s.idx]? = some q) :
    ((Finset.Ico (R.enter s) (R.leave s)).filter (fun t => s.job ∈ R.sched t)).card
      ≤ min (S.sectionBound m s.job.1 q) (S.inflated m s.job.1) := by
  classical
  apply le_min
  · unfold LockSystem.sectionBound
    split_ifs with hg
    · exact h.section_le hi hq (spin_le_bound h hm hi hq hg)
    · have := h.section_le hi hq (b := 0) (by have := h.immediate s q hi hq hg; omega)
      omega
  · exact (serviceIn_le_exec h.valid s.job (R.enter s) (R.leave s)).trans (exec_le_inflated h hm s.job)

/-- **C90**, safety: if the test accepts, no run of partitioned EDF with the MSRP misses a
deadline.  The processors are numbered from 0 to `m - 1` and the preemption levels are ordered
like the relative deadlines. -/
theorem C90_msrp_safe (info : Info) (m fuel : ℕ) (hT : ∀ t ∈ info, 0 < t.period)
    (hD : ∀ t ∈ info, 0 < t.deadline) (hm : ∀ t ∈ info, t.cluster < m)
    (hlev : ∀ a ∈ info, ∀ b ∈ info, a.priority ≤ b.priority ↔ a.deadline ≤ b.deadline)
    (h : pedfMsrpClassic fuel info m = some true) : MsrpSchedulable (system info) := by
  have hw : Wf info m := ⟨hT, hD, hm⟩
  have hacc := isSchedulable_of_loop h
  have hm' : ∀ i, (system info).proc i < m := fun i => hm _ (List.get_mem info i)
  intro R hR
  have hpos : ∀ k, (∀ t ∈ partition info m k, 0 < t.period) ∧ ∀ t ∈ partition info m k, 0 < t.deadline :=
    fun k => ⟨fun t ht => (partition_pos hw ht).1, fun t ht => (partition_pos hw ht).2⟩
  refine hR.meets (fun i => hT _ (List.get_mem info i)) ((system info).inflated m)
    (exec_le_inflated hR.toSpinRun hm')
    (fun a q => min ((system info).sectionBound m a q) ((system info).inflated m a))
    (fun s q hi hq => section_le_bound hR.toSpinRun hm' hi hq) ?_ ?_
  · intro p t
    change (system info).procDemand m p t ≤ t
    by_cases hp : ∃ i, (system info).proc i = p
    · obtain ⟨i, rfl⟩ := hp
      rw [← boundDemand_partition hw]
      exact isSchedulable_safe (hpos _).1 (hpos _).2 (hacc _ (cluster_lt i))
        (Native.stepDemand_boundDemand (hpos _).1) (fun t => getDemand_ge _ t) (fun _ => le_rfl)
        (fun _ _ => rfl) t
    · push Not at hp
      rw [procDemand_empty hp]; exact Nat.zero_le _
  · intro t i a hp hd hda q hq _ hc
    change (system info).procDemand m (info.get i).cluster t + _ ≤ t
    have hia : (info.get i).cluster = (info.get a).cluster := hp.symm
    have := isSchedulable_safe (hpos _).1 (hpos _).2 (hacc _ (cluster_lt i))
      (stepDemand_section hw i a hia (Nat.min_le_right ((system info).sectionBound m a q) _)) ?_ ?_ ?_ t
    · rw [boundDemand_partition hw, if_pos ⟨hd, hda⟩] at this
      exact this
    · intro x
      beta_reduce
      by_cases hx : (info.get i).deadline ≤ x ∧ x < (info.get a).deadline
      · rw [if_pos hx]
        unfold getDemand
        obtain ⟨ta, hta, hea⟩ := exists_task hw a
        rw [← hia] at hta
        have := le_maxRelativeDeadline hta
        rw [if_pos (by omega)]
        apply Nat.add_le_add_left
        exact (Nat.min_le_left _ _).trans (edfArrivalBlocking_covers hlev (hm' i) le_rfl i a rfl hp hx.1 hx.2 q hq hc)
      · rw [if_neg hx]
        exact getDemand_ge _ x
    · intro x; beta_reduce; omega
    · intro x hx
      beta_reduce
      obtain ⟨ta, hta, hea⟩ := exists_task hw a
      rw [← hia] at hta
      have := le_maxRelativeDeadline hta
      rw [if_neg (by omega), Nat.add_zero]

/-- **C90**, termination: for positive periods the test ends. -/
theorem C90_msrp_terminates (info : Info) (m : ℕ) (hT : ∀ t ∈ info, 0 < t.period) :
    ∃ N b, ∀ fuel ≥ N, pedfMsrpClassic fuel info m = some b := by
  have hper : ∀ k, ∀ t ∈ partition info m k, 0 < t.period := by
    intro k t ht
    unfold partition at ht
    obtain ⟨x, hx, he⟩ := List.mem_filterMap.1 ht
    split_ifs at he
    obtain rfl := Option.some.inj he
    exact hT _ (List.of_mem_zip hx).1
  have hone : ∀ k, ∃ N b, ∀ fuel ≥ N, isSchedulable fuel info m k (partition info m k) = some b := by
    intro k
    set ts := partition info m k with hts
    by_cases hU : ts.utilization > 1
    · exact ⟨0, false, fun fuel _ => by unfold isSchedulable; rw [if_pos hU]⟩
    · obtain ⟨N, L, hN⟩ := Native.edfBusyInterval_terminates (hper k) (not_lt.1 hU)
      set M := max (if ts.utilization < 1 then min L (Native.zhangBurnsInterval ts) else L)
        (maxRelativeDeadline ts) with hM
      obtain ⟨r, hr⟩ := Native.qpaLoop_terminates (getDemand info m k ts) (hper k)
        (Native.largestTestpoint ts M + 1) (Native.largestTestpoint ts M) (by omega)
      refine ⟨max N (Native.largestTestpoint ts M + 1),
        !Native.exceeds r.2 (Native.minRelativeDeadline ts), fun fuel hf => ?_⟩
      unfold isSchedulable Native.maxInterval
      rw [if_neg hU, hN fuel (by omega)]
      simp only [← hM]
      rw [Native.qpaLoop_mono_fuel hr (show _ ≤ fuel by omega)]
  unfold pedfMsrpClassic
  generalize List.range (splitByCluster info).length = ks
  induction ks with
  | nil => exact ⟨0, true, fun fuel _ => rfl⟩
  | cons k ks ih =>
    obtain ⟨N, b, hN⟩ := ih
    obtain ⟨N', b', hN'⟩ := hone k
    cases b' with
    | false =>
      refine ⟨N', false, fun fuel hf => ?_⟩
      rw [clusterLoop, hN' fuel hf]
    | true =>
      refine ⟨max N N', b, fun fuel hf => ?_⟩
      rw [clusterLoop, hN' fuel (by omega)]
      exact hN fuel (by omega)

/-! ### Exactness -/

theorem length_addAt {α : Type} (cs : List (List α)) (i : ℕ) (x : α) :
    (addAt cs i x).length = max cs.length (i + 1) := by
  induction i generalizing cs with
  | zero => cases cs <;> simp [addAt]
  | succ i ih => cases cs <;> simp [addAt, ih]

theorem length_splitByCluster {info : Info} {m : ℕ} (hm : ∀ t ∈ info, t.cluster < m) :
    (splitByCluster info).length ≤ m := by
  have key : ∀ (l : List (TaskInfo × ℕ)) (cs : List (List (ℕ × TaskInfo))), cs.length ≤ m →
      (∀ x ∈ l, x.1.cluster < m) →
      (l.foldl (fun cs t => addAt cs t.1.cluster (t.2, t.1)) cs).length ≤ m := by
    intro l
    induction l with
    | nil => intro cs h _; exact h
    | cons x l ih =>
      intro cs h hx
      rw [List.foldl_cons]
      apply ih _ _ (fun y hy => hx y (List.mem_cons_of_mem _ hy))
      rw [length_addAt]
      have := hx x List.mem_cons_self
      omega
  exact key _ [] (Nat.zero_le _) (fun x hx => hm _ (List.fst_mem_of_mem_zipIdx hx))

theorem sectionBound_le_inflated {info : Info} {m : ℕ}
    (hq : ∀ t ∈ info, ∀ q ∈ t.requests, 0 < q.num ∧ q.length ≤ t.cost) (a : Fin info.length)
    {q : Req} (h : q ∈ (system info).reqs a) :
    (system info).sectionBound m a q ≤ (system info).inflated m a := by
  obtain ⟨q', hq', rfl⟩ := mem_reqs.1 h
  obtain ⟨h1, h2⟩ := hq _ (List.get_mem info a) q' hq'
  change q'.length ≤ (system info).cost a at h2
  unfold LockSystem.sectionBound LockSystem.inflated
  split_ifs with hg
  · have := List.single_le_sum (l := ((system info).reqs a).map (fun q => open Classical in
        if (system info).Global q.res then q.num * (system info).spinBound m a q.res else 0))
      (fun _ _ => Nat.zero_le _) _ (List.mem_map.2 ⟨_, h, rfl⟩)
    rw [if_pos hg] at this
    simp only at this ⊢
    have h3 := Nat.le_mul_of_pos_left ((system info).spinBound m a q'.resId) h1
    omega
  · simp only at h2 ⊢
    omega

section
variable {info : Info} {m k : ℕ} (hw : Wf info m) (hlev : EdfLevels info)
  (hu : ∀ t ∈ info, t.priority < uintMax) (hk : k < m)
include hw hlev hu hk

theorem getDemand_eq (t : ℕ) : getDemand info m k (partition info m k) t =
    (partition info m k).boundDemand t + edfArrivalBlocking info m t k := by
  unfold getDemand
  split_ifs with h
  · rfl
  · have : edfArrivalBlocking info m t k ≤ 0 := by
      rw [edfArrivalBlocking_le hlev hu hk]
      intro i a _ ha _ hda
      obtain ⟨ta, hta, hea⟩ := exists_task hw a
      have h1 := le_maxRelativeDeadline hta
      change t < (info.get a).deadline at hda
      have h2 : (info.get a).cluster = k := ha
      rw [h2] at h1
      omega
    omega

theorem stepDemand_getDemand
    (hq : ∀ t ∈ info, ∀ q ∈ t.requests, 0 < q.num ∧ q.length ≤ t.cost) :
    Native.StepDemand (partition info m k) (getDemand info m k (partition info m k)) := by
  have hT : ∀ t ∈ partition info m k, 0 < t.period := fun t ht => (partition_pos hw ht).1
  refine ⟨fun {x y} hxy => ?_, fun {M x} h1 h2 => ?_, fun {x} hz => ?_⟩
  · rw [getDemand_eq hw hlev hu hk, getDemand_eq hw hlev hu hk]
    have hmono := Native.boundDemand_mono (partition info m k) hxy
    have : edfArrivalBlocking info m x k ≤ (partition info m k).boundDemand y
        + edfArrivalBlocking info m y k - (partition info m k).boundDemand x := by
      rw [edfArrivalBlocking_le hlev hu hk]
      intro i a hi ha hd hda q hqa hc
      by_cases hy : y < (system info).deadline a
      · have := edfArrivalBlocking_covers hlev hk (le_refl (edfArrivalBlocking info m y k)) i a hi ha
          (hd.trans hxy) hy q hqa hc
        omega
      · have h3 := boundDemand_jump hw a hda (not_lt.1 hy)
        rw [show (info.get a).cluster = k from ha] at h3
        have h4 := sectionBound_le_inflated (m := m) hq a hqa
        omega
    omega
  · rw [getDemand_eq hw hlev hu hk, getDemand_eq hw hlev hu hk,
      Native.largestTestpoint_const hT M h1 h2]
    congr 1
    have hr : ∀ i, (system info).proc i = k → ((system info).deadline i ≤ x ↔
        (system info).deadline i ≤ Native.largestTestpoint (partition info m k) M) := by
      intro i hi
      have := reached_iff hw i (M := M) (x := x) (by rw [show (info.get i).cluster = k from hi]; exact h1) h2
      rw [show (info.get i).cluster = k from hi] at this
      exact this
    apply le_antisymm <;> rw [edfArrivalBlocking_le hlev hu hk] <;> intro i a hi ha hd hda
    · exact edfArrivalBlocking_covers hlev hk le_rfl i a hi ha ((hr i hi).1 hd)
        (not_le.1 (fun h => absurd ((hr a ha).2 h) (not_le.2 hda)))
    · exact edfArrivalBlocking_covers hlev hk le_rfl i a hi ha ((hr i hi).2 hd)
        (not_le.1 (fun h => absurd ((hr a ha).1 h) (not_le.2 hda)))
  · rw [getDemand_eq hw hlev hu hk, Native.boundDemand_eq_zero hz]
    have : edfArrivalBlocking info m x k ≤ 0 := by
      rw [edfArrivalBlocking_le hlev hu hk]
      intro i a hi _ hd
      obtain ⟨t, ht, he⟩ := exists_task hw i
      rw [show (info.get i).cluster = k from hi] at ht
      have := hz t ht
      change (info.get i).deadline ≤ x at hd
      omega
    omega

theorem isSchedulable_iff (hq : ∀ t ∈ info, ∀ q ∈ t.requests, 0 < q.num ∧ q.length ≤ t.cost)
    {fuel : ℕ} {b : Bool} (h : isSchedulable fuel info m k (partition info m k) = some b) :
    b = true ↔ ∀ t, getDemand info m k (partition info m k) t ≤ t := by
  have hT : ∀ t ∈ partition info m k, 0 < t.period := fun t ht => (partition_pos hw ht).1
  have hD : ∀ t ∈ partition info m k, 0 < t.deadline := fun t ht => (partition_pos hw ht).2
  have hstep := stepDemand_getDemand hw hlev hu hk hq
  constructor
  · rintro rfl
    refine isSchedulable_safe hT hD h hstep (fun _ => le_rfl) (getDemand_ge _) (fun t ht => ?_)
    rw [getDemand_eq hw hlev hu hk]
    have : edfArrivalBlocking info m t k ≤ 0 := by
      rw [edfArrivalBlocking_le hlev hu hk]
      intro i a _ ha _ hda
      obtain ⟨ta, hta, hea⟩ := exists_task hw a
      have h1 := le_maxRelativeDeadline hta
      change t < (info.get a).deadline at hda
      rw [show (info.get a).cluster = k from ha] at h1
      omega
    omega
  · intro hall
    cases b with
    | true => rfl
    | false =>
      exfalso
      unfold isSchedulable at h
      have hU := Native.util_le_of_demand hT (fun x => (getDemand_ge _ x).trans (hall x))
      rw [if_neg (not_lt.2 hU)] at h
      split at h
      · simp at h
      · simp only at h
        split at h
        · simp at h
        · rename_i M hM _ interval demand hloop
          have hex : Native.exceeds demand (Native.minRelativeDeadline (partition info m k)) = true := by
            simpa using h
          obtain ⟨h1, _, h3⟩ := Native.qpaLoop_spec hstep fuel _ interval demand (fun _ _ => hall) hloop
          have h4 := h3 hex
          have h5 := hall interval
          omega

end

theorem clusterLoop_defined {info : Info} {m fuel : ℕ} : ∀ {ks : List ℕ} {b : Bool},
    clusterLoop fuel info m ks = some b → b = false →
    ∃ k ∈ ks, isSchedulable fuel info m k (partition info m k) = some false := by
  intro ks
  induction ks with
  | nil => intro b h hb; rw [clusterLoop, hb] at h; simp at h
  | cons k ks ih =>
    intro b h hb
    rw [clusterLoop] at h
    split at h
    · simp at h
    · rename_i heq; exact ⟨k, List.mem_cons_self, heq⟩
    · obtain ⟨k', hk', h'⟩ := ih h hb
      exact ⟨k', List.mem_cons_of_mem _ hk', h'⟩

/-- **C90**, exactness: if in addition each task executes at least as long as each of its
requests and has a level below the largest `unsigned int`, the test decides
Baruah's criterion. -/
theorem C90_msrp_exact (info : Info) (m fuel : ℕ) (hT : ∀ t ∈ info, 0 < t.period)
    (hD : ∀ t ∈ info, 0 < t.deadline) (hm : ∀ t ∈ info, t.cluster < m)
    (hlev : ∀ a ∈ info, ∀ b ∈ info, a.priority ≤ b.priority ↔ a.deadline ≤ b.deadline)
    (hu : ∀ t ∈ info, t.priority < 4294967295)
    (hq : ∀ t ∈ info, ∀ q ∈ t.requests, 0 < q.num ∧ q.length ≤ t.cost)
    {b : Bool} (h : pedfMsrpClassic fuel info m = some b) :
    b = true ↔ (system info).Criterion m := by
  have hw : Wf info m := ⟨hT, hD, hm⟩
  have hcrit : ∀ k < m, (∀ t, getDemand info m k (partition info m k) t ≤ t) ↔ ∀ t,
      (system info).procDemand m k t ≤ t ∧ ∀ i a, (system info).proc i = k → (system info).proc a = k →
      (system info).deadline i ≤ t → t < (system info).deadline a → ∀ q ∈ (system info).reqs a,
      ((system info).Global q.res ∨
        ∃ k, (system info).Uses k q.res ∧ (system info).deadline k ≤ (system info).deadline i) →
      (system info).procDemand m k t + (system info).sectionBound m a q ≤ t := by
    intro k hk
    apply forall_congr'
    intro t
    rw [getDemand_eq hw hlev hu hk, boundDemand_partition hw]
    constructor
    · intro h1
      refine ⟨by omega, fun i a hi ha hd hda q hqa hc => ?_⟩
      have := edfArrivalBlocking_covers hlev hk (le_refl (edfArrivalBlocking info m t k)) i a hi ha hd
        hda q hqa hc
      omega
    · rintro ⟨h1, h2⟩
      have : edfArrivalBlocking info m t k ≤ t - (system info).procDemand m k t := by
        rw [edfArrivalBlocking_le hlev hu hk]
        intro i a hi ha hd hda q hqa hc
        have := h2 i a hi ha hd hda q hqa hc
        omega
      omega
  have hlen := length_splitByCluster hm
  constructor
  · rintro rfl p t
    by_cases hp : ∃ i, (system info).proc i = p
    · obtain ⟨i, rfl⟩ := hp
      have hk : (system info).proc i < m := hm _ (List.get_mem info i)
      exact (hcrit _ hk).1 ((isSchedulable_iff hw hlev hu hk hq
        (isSchedulable_of_loop h _ (cluster_lt i))).1 rfl) t
    · push Not at hp
      exact ⟨by rw [procDemand_empty hp]; exact Nat.zero_le _, fun i _ hi => absurd hi (hp i)⟩
  · intro hc
    cases b with
    | true => rfl
    | false =>
      obtain ⟨k, hk, h'⟩ := clusterLoop_defined h rfl
      have hk' : k < m := lt_of_lt_of_le (List.mem_range.1 hk) hlen
      exact (isSchedulable_iff hw hlev hu hk' hq h').2 ((hcrit k hk').2 (hc k))

end Verif.SR.Msrp
