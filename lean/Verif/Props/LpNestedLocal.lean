/-
C142: the bounds of the analysis of nested FIFO spin locks if no resource is shared between processors.
-/
import Verif.Props.LpNested
import Verif.Lemmas.LpSplit
import Mathlib.Order.Bounds.Basic
import Mathlib.Data.Set.Finite.Lemmas

namespace Verif.SR.Lp
open Verif.Spec
open Verif.Nested (CritSec TaskCs)

variable {info : Info} {css : List TaskCs} {i : ℕ} {ti : TaskInfo} {x : Key → ℚ}

theorem of_declareBinary {P : Program} {k : Key} (h : (declareBinary P k).Feasible x) :
    P.Feasible x ∧ (x k = 0 ∨ x k = 1) :=
  ⟨⟨h.eq, h.le, h.integer, fun v hv => h.binary v (List.mem_cons_of_mem _ hv), h.range⟩,
    h.binary k (List.mem_cons_self ..)⟩

/-- What the constraints say for critical sections that are not nested. -/
structure NestedFacts (info : Info) (css : List TaskCs) (i : ℕ) (ti : TaskInfo) (x : Key → ℚ) : Prop where
  direct : ∀ s ∈ taskSecs css (tasks info), ∀ v ∈ csInstances css ti s, 0 ≤ x ⟨.direct, s.1.1, v, s.2.1.res⟩
  nested : ∀ s ∈ taskSecs css (tasks info), ∀ v ∈ csInstances css ti s, x ⟨.indirect, s.1.1, v, s.2.1.res⟩ = 0
  lower : termSum x (((taskSecs css (localLowerEq info i ti)).filter (fun s =>
    isLocalLower info css ti s.2.1.res)).flatMap (csVars css ti 1 .direct)) = 0
  arrival : termSum x ((taskSecs css (localLowerEq info i ti)).flatMap (csVars css ti 1 .direct)) ≤ 1
  remote : ∀ k q, k ≤ maxCpu info → k ≠ ti.cluster → q ≤ maxResource info css →
    termSum x (((taskSecs css ((tasks info).filter (fun t => t.2.cluster = k))).filter (fun s =>
      s.2.1.res = q)).flatMap (csVars css ti 1 .direct)) +
    termSum x (((taskSecs css ((tasks info).filter (fun t => t.2.cluster = ti.cluster))).filter (fun s =>
      s.2.1.res = q)).flatMap (csVars css ti (-1) .direct)) ≤ 0

theorem termSum_indirect (hn : ∀ s ∈ taskSecs css (tasks info), ∀ v ∈ csInstances css ti s,
      x ⟨.indirect, s.1.1, v, s.2.1.res⟩ = 0) {L : List TaskSec} (hL : ∀ s ∈ L, s ∈ taskSecs css (tasks info)) (a : ℚ) :
    termSum x (L.flatMap (csVars css ti a .indirect)) = 0 := by
  apply termSum_zero
  intro t ht
  obtain ⟨s, hs, ht⟩ := List.mem_flatMap.1 ht
  obtain ⟨v, hv, rfl⟩ := List.mem_map.1 ht
  exact hn s (hL s hs) v hv

theorem sub_secs {p : ℕ × TaskInfo → Bool} {s : TaskSec} (h : s ∈ taskSecs css ((tasks info).filter p)) :
    s ∈ taskSecs css (tasks info) ∧ p s.1 = true := by
  obtain ⟨h1, h2⟩ := mem_taskSecs.1 h
  obtain ⟨h3, h4⟩ := List.mem_filter.1 h1
  exact ⟨mem_taskSecs.2 ⟨h3, h2⟩, h4⟩

theorem nested_facts (paths : CsPaths) (houter : ∀ s ∈ taskSecs css (tasks info), s.2.1.outer = none)
    (h : (remoteConstraints info css ti paths (arrivalBlockingConstraints info css i ti
      (localResourceConstraints info css i ti (nestingConstraints info css ti (typeConstraints info css ti
        (nestedObjective info css ti {})))))).Feasible x) : NestedFacts info css i ti x := by
  unfold remoteConstraints at h
  obtain ⟨h1, hrem⟩ := of_foldl (Q := fun k => ∀ q ∈ List.range (maxResource info css + 1),
      ((taskSecs css ((tasks info).filter (fun t => t.2.cluster = k))).filter (fun s =>
        s.2.1.res = q ∧ ∅ ⊆ outerSet css s)).flatMap (csVars css ti 1 .direct) = [] ∨
      termSum x (((taskSecs css ((tasks info).filter (fun t => t.2.cluster = k))).filter (fun s =>
        s.2.1.res = q ∧ ∅ ⊆ outerSet css s)).flatMap (csVars css ti 1 .direct) ++
        ((taskSecs css ((tasks info).filter (fun t => t.2.cluster = ti.cluster))).filter (fun s =>
          s.2.1.res = q ∧ ∅ ∩ outerSet css s = ∅)).flatMap (csVars css ti (-1) .direct) ++
        ((taskSecs css ((tasks info).filter (fun t => t.2.cluster ≠ k))).filter (fun s =>
          s.2.1.res = q ∧ ∅ ∩ outerSet css s = ∅ ∧ ∅ ∩ pathSet paths s = ∅)).flatMap
            (csVars css ti (-1) .indirect)) ≤ 0) (by
    intro k _ P hP
    refine of_foldl ?_ hP
    intro q _ P hP
    obtain ⟨h1, h2⟩ := of_foldl (Q := fun sr : Finset ℕ => sr = ∅ →
        ((taskSecs css ((tasks info).filter (fun t => t.2.cluster = k))).filter (fun s =>
          s.2.1.res = q ∧ ∅ ⊆ outerSet css s)).flatMap (csVars css ti 1 .direct) = [] ∨
        termSum x (((taskSecs css ((tasks info).filter (fun t => t.2.cluster = k))).filter (fun s =>
          s.2.1.res = q ∧ ∅ ⊆ outerSet css s)).flatMap (csVars css ti 1 .direct) ++
          ((taskSecs css ((tasks info).filter (fun t => t.2.cluster = ti.cluster))).filter (fun s =>
            s.2.1.res = q ∧ ∅ ∩ outerSet css s = ∅)).flatMap (csVars css ti (-1) .direct) ++
          ((taskSecs css ((tasks info).filter (fun t => t.2.cluster ≠ k))).filter (fun s =>
            s.2.1.res = q ∧ ∅ ∩ outerSet css s = ∅ ∧ ∅ ∩ pathSet paths s = ∅)).flatMap
              (csVars css ti (-1) .indirect)) ≤ 0) (by
      intro sr _ P hP
      unfold remoteForResource at hP
      dsimp only at hP
      split_ifs at hP with he
      · refine ⟨hP, ?_⟩
        rintro rfl
        exact Or.inl (List.isEmpty_iff.1 he)
      · obtain ⟨h1, h2⟩ := of_addInequality hP le_rfl
        refine ⟨h1, ?_⟩
        rintro rfl
        exact Or.inr h2) hP
    refine ⟨h1, h2 ∅ ?_ rfl⟩
    refine List.mem_filter.2 ⟨List.mem_dedup.2 (List.mem_cons_self ..), by simp⟩) h
  obtain ⟨h2, harr⟩ := of_addInequality h1 zero_le_one
  obtain ⟨h3, hlow⟩ := of_addEquality h2
  unfold nestingConstraints at h3
  obtain ⟨h4, hnest⟩ := of_foldl (Q := fun s : TaskSec => s.2.1.outer = none → ∀ v ∈ csInstances css ti s,
      x ⟨.indirect, s.1.1, v, s.2.1.res⟩ = 0) (by
    intro s hs P hP
    rw [houter s hs] at hP
    obtain ⟨h1, h2⟩ := of_foldl (Q := fun v => x ⟨.indirect, s.1.1, v, s.2.1.res⟩ = 0) (by
      intro v _ P hP
      obtain ⟨h1, h2⟩ := of_addEquality hP
      exact ⟨h1, by simpa [termSum] using h2⟩) hP
    exact ⟨h1, fun _ => h2⟩) h3
  have hn : ∀ s ∈ taskSecs css (tasks info), ∀ v ∈ csInstances css ti s, x ⟨.indirect, s.1.1, v, s.2.1.res⟩ = 0 :=
    fun s hs => hnest s hs (houter s hs)
  unfold typeConstraints at h4
  obtain ⟨_, htype⟩ := of_foldl (Q := fun s : TaskSec => ∀ v ∈ csInstances css ti s,
      0 ≤ x ⟨.direct, s.1.1, v, s.2.1.res⟩) (by
    intro s hs P hP
    refine of_foldl ?_ hP
    intro v _ P hP
    obtain ⟨h1, _⟩ := of_addInequality hP zero_le_one
    obtain ⟨h1, _⟩ := of_declareBinary h1
    obtain ⟨h1, h2⟩ := of_declareBinary h1
    refine ⟨h1, ?_⟩
    rcases h2 with h2 | h2 <;> rw [h2]
    exact zero_le_one) h4
  refine ⟨htype, hn, hlow, harr, ?_⟩
  intro k q hk hkc hq
  have key := hrem k (List.mem_filter.2 ⟨List.mem_range.2 (by omega), by simpa using hkc⟩) q
    (List.mem_range.2 (by omega))
  have e1 : (fun s : TaskSec => decide (s.2.1.res = q ∧ (∅ : Finset ℕ) ⊆ outerSet css s)) =
      fun s => decide (s.2.1.res = q) := by
    funext s
    simp
  have e2 : (fun s : TaskSec => decide (s.2.1.res = q ∧ (∅ : Finset ℕ) ∩ outerSet css s = ∅)) =
      fun s => decide (s.2.1.res = q) := by
    funext s
    simp
  rw [e1, e2] at key
  rcases key with key | key
  · rw [key]
    have : termSum x (((taskSecs css ((tasks info).filter (fun t => t.2.cluster = ti.cluster))).filter (fun s =>
        s.2.1.res = q)).flatMap (csVars css ti (-1) .direct)) ≤ 0 := by
      unfold termSum
      refine (List.sum_le_card_nsmul _ 0 ?_).trans (by simp)
      intro a ha
      obtain ⟨t, ht, rfl⟩ := List.mem_map.1 ha
      obtain ⟨s, hs, ht⟩ := List.mem_flatMap.1 ht
      obtain ⟨v, hv, rfl⟩ := List.mem_map.1 ht
      have := htype s (sub_secs (List.mem_filter.1 hs).1).1 v hv
      simp only
      linarith
    simpa [termSum] using this
  · rw [termSum_append, termSum_append, termSum_indirect hn
      (fun s hs => (sub_secs (List.mem_filter.1 hs).1).1)] at key
    linarith

theorem sum_taskSecs_filter (p : ℕ × TaskInfo → Bool) (f : TaskSec → ℚ) : ∀ ts : List (ℕ × TaskInfo),
    ((taskSecs css (ts.filter p)).map f).sum = ((taskSecs css ts).map (fun s => if p s.1 then f s else 0)).sum := by
  intro ts
  induction ts with
  | nil => rfl
  | cons t ts ih =>
    have e : ∀ l, taskSecs css (t :: l) = (csOf css t.1).zipIdx.map (fun c => (t, c)) ++ taskSecs css l := fun _ => rfl
    rw [e, List.map_append, List.sum_append, ← ih, List.filter_cons]
    by_cases h : p t = true
    · rw [if_pos h, e, List.map_append, List.sum_append]
      congr 2
      rw [List.map_map, List.map_map]
      apply List.map_congr_left
      intro c _
      simp [h]
    · rw [if_neg h]
      rw [List.map_map, right_eq_add]
      apply List.sum_eq_zero
      intro a ha
      obtain ⟨c, _, rfl⟩ := List.mem_map.1 ha
      simp [h]

/-- No resource is used on two processors. -/
def OneProcessor (info : Info) (css : List TaskCs) : Prop :=
  ∀ (y z : ℕ) (ty tz : TaskInfo) (cy cz : TaskCs) (c d : CritSec), info[y]? = some ty → info[z]? = some tz →
    css[y]? = some cy → css[z]? = some cz → c ∈ cy → d ∈ cz → c.res = d.res → ty.cluster = tz.cluster

/-- The lengths of the critical sections of tasks on the same processor with less priority, for resources that are used by
a task with at least the same priority as `ti`, and zero. -/
def SrpLengths (info : Info) (css : List TaskCs) (ti : TaskInfo) : Set ℕ :=
  {L | L = 0 ∨ ∃ (y : ℕ) (ty : TaskInfo) (cy : TaskCs) (c : CritSec), info[y]? = some ty ∧ css[y]? = some cy ∧ c ∈ cy ∧
    ty.cluster = ti.cluster ∧ ti.priority < ty.priority ∧ L = c.len ∧
    ∃ (z : ℕ) (tz : TaskInfo) (cz : TaskCs) (d : CritSec), info[z]? = some tz ∧ css[z]? = some cz ∧ d ∈ cz ∧
      d.res = c.res ∧ tz.priority ≤ ti.priority}

theorem same_processor (h : OneProcessor info css) {s t : TaskSec} (hs : s ∈ taskSecs css (tasks info))
    (ht : t ∈ taskSecs css (tasks info)) (he : s.2.1.res = t.2.1.res) : s.1.2.cluster = t.1.2.cluster := by
  obtain ⟨h1, c1, h2, h3⟩ := mem_secs_iff.1 hs
  obtain ⟨h4, c2, h5, h6⟩ := mem_secs_iff.1 ht
  exact h _ _ _ _ _ _ _ _ h1 h4 h2 h5 (List.mem_of_getElem? h3) (List.mem_of_getElem? h6) he

theorem mem_accessing {q : ℕ} {t : TaskInfo} :
    t ∈ accessing info css q ↔ ∃ s ∈ taskSecs css (tasks info), s.1.2 = t ∧ s.2.1.res = q := by
  unfold accessing
  rw [List.mem_map]
  constructor
  · rintro ⟨a, ha, rfl⟩
    obtain ⟨h1, h2⟩ := List.mem_filter.1 ha
    obtain ⟨c, hc, h3⟩ := List.any_eq_true.1 h2
    obtain ⟨d, hd⟩ := List.mem_iff_getElem?.1 hc
    exact ⟨(a, c, d), mem_taskSecs.2 ⟨h1, hd⟩, rfl, of_decide_eq_true h3⟩
  · rintro ⟨s, hs, rfl, rfl⟩
    obtain ⟨h1, h2⟩ := mem_taskSecs.1 hs
    exact ⟨s.1, List.mem_filter.2 ⟨h1, List.any_eq_true.2 ⟨s.2.1, List.mem_of_getElem? h2, by simp⟩⟩, rfl⟩

theorem isLocalLower_iff (h : OneProcessor info css) {s : TaskSec} (hs : s ∈ taskSecs css (tasks info))
    (hc : s.1.2.cluster = ti.cluster) :
    isLocalLower info css ti s.2.1.res = true ↔
      ∀ t ∈ taskSecs css (tasks info), t.2.1.res = s.2.1.res → ti.priority < t.1.2.priority := by
  have hmem : s.1.2 ∈ accessing info css s.2.1.res := mem_accessing.2 ⟨s, hs, rfl, rfl⟩
  have hmin : ∃ m, ((accessing info css s.2.1.res).map TaskInfo.priority).min? = some m := by
    rcases hm : ((accessing info css s.2.1.res).map TaskInfo.priority).min? with _ | m
    · rw [List.min?_eq_none_iff, List.map_eq_nil_iff] at hm
      rw [hm] at hmem
      simp at hmem
    · exact ⟨m, rfl⟩
  obtain ⟨m, hm⟩ := hmin
  have hm' := List.min?_eq_some_iff.1 hm
  unfold isLocalLower
  rw [hm, Option.getD_some]
  simp only [Bool.and_eq_true, decide_eq_true_eq]
  constructor
  · rintro ⟨_, h2⟩ t ht he
    have := hm'.2 _ (List.mem_map_of_mem (f := TaskInfo.priority) (mem_accessing.2 ⟨t, ht, rfl, he⟩))
    omega
  · intro h2
    have hall : ∀ a ∈ (accessing info css s.2.1.res).map TaskInfo.cluster, a = ti.cluster := by
      intro a ha
      obtain ⟨t, ht, rfl⟩ := List.mem_map.1 ha
      obtain ⟨u, hu, rfl, he⟩ := mem_accessing.1 ht
      rw [same_processor h hu hs he, hc]
    refine ⟨⟨?_, ?_⟩, ?_⟩
    · rw [← hc]
      exact List.mem_map_of_mem hmem
    · rw [List.eq_replicate_iff.2 ⟨rfl, hall⟩, List.replicate_dedup]
      · rfl
      · rw [List.length_map]
        exact Nat.ne_of_gt (List.length_pos_of_mem hmem)
    · obtain ⟨t, ht, he⟩ := List.mem_map.1 hm'.1
      obtain ⟨u, hu, rfl, hr⟩ := mem_accessing.1 ht
      rw [← he]
      exact h2 u hu hr

theorem exists_srp (info : Info) (css : List TaskCs) (ti : TaskInfo) : ∃ B, IsGreatest (SrpLengths info css ti) B := by
  have hfin : (SrpLengths info css ti).Finite := by
    apply Set.Finite.subset ((0 :: (taskSecs css (tasks info)).map (fun s => s.2.1.len)).toFinset.finite_toSet)
    rintro L (rfl | ⟨y, ty, cy, c, h1, h2, h3, _, _, rfl, _⟩)
    · simp
    · obtain ⟨d, hd⟩ := List.mem_iff_getElem?.1 h3
      rw [List.coe_toFinset]
      exact List.mem_cons_of_mem _ (List.mem_map.2 ⟨((y, ty), c, d), mem_secs_iff.2 ⟨h1, cy, h2, hd⟩, rfl⟩)
  obtain ⟨B, h1, h2⟩ := Set.exists_max_image _ id hfin ⟨0, Or.inl rfl⟩
  exact ⟨B, h1, fun a ha => h2 a ha⟩

theorem termSum_pairs_eq (hn : ∀ s ∈ taskSecs css (tasks info), ∀ v ∈ csInstances css ti s,
      x ⟨.indirect, s.1.1, v, s.2.1.res⟩ = 0) {s : TaskSec} (hs : s ∈ taskSecs css (tasks info)) (a : ℚ) :
    termSum x ((csInstances css ti s).flatMap (fun v =>
      [(a, (⟨.direct, s.1.1, v, s.2.1.res⟩ : Key)), (a, ⟨.indirect, s.1.1, v, s.2.1.res⟩)])) =
    a * termSum x (csVars css ti 1 .direct s) := by
  replace hn := hn s hs
  unfold csVars
  generalize csInstances css ti s = l at hn ⊢
  induction l with
  | nil => simp [termSum]
  | cons v l ih =>
    rw [List.flatMap_cons, termSum_append, ih (fun w hw => hn w (List.mem_cons_of_mem _ hw)), List.map_cons]
    simp only [termSum, List.map_cons, List.sum_cons, List.map_nil, List.sum_nil, hn v (List.mem_cons_self ..)]
    ring

theorem srp_upper (h1 : OneProcessor info css) (hi : info[i]? = some ti) (hf : NestedFacts info css i ti x) {B : ℕ}
    (hB : ∀ L ∈ SrpLengths info css ti, L ≤ B) : termSum x (nestedObjective info css ti {}).objective ≤ B := by
  set D : TaskSec → ℚ := fun s => termSum x (csVars css ti 1 .direct s) with hD
  have hpos : ∀ s ∈ taskSecs css (tasks info), 0 ≤ D s := by
    intro s hs
    apply List.sum_nonneg
    intro a ha
    obtain ⟨t, ht, rfl⟩ := List.mem_map.1 ha
    obtain ⟨v, hv, rfl⟩ := List.mem_map.1 ht
    simpa using hf.direct s hs v hv
  have hzero : ∀ L : List TaskSec, (∀ s ∈ L, s ∈ taskSecs css (tasks info)) →
      termSum x (L.flatMap (csVars css ti 1 .direct)) ≤ 0 → ∀ s ∈ L, D s ≤ 0 := by
    intro L hL h s hs
    rw [termSum_flatMap] at h
    refine le_trans (List.single_le_sum ?_ _ (List.mem_map.2 ⟨s, hs, rfl⟩)) h
    intro a ha
    obtain ⟨t, ht, rfl⟩ := List.mem_map.1 ha
    exact hpos t (hL t ht)
  have hremote : ∀ s ∈ taskSecs css (tasks info), s.1.2.cluster ≠ ti.cluster → D s ≤ 0 := by
    intro s hs hc
    have hk : s.1.2.cluster ≤ maxCpu info := by
      apply le_foldl_max_nested _ _ _ (Or.inr _)
      exact List.mem_map_of_mem (List.mem_of_getElem? (mem_secs_iff.1 hs).1)
    have hq : s.2.1.res ≤ maxResource info css :=
      le_foldl_max_nested _ _ _ (Or.inr (List.mem_map.2 ⟨s, hs, rfl⟩))
    have key := hf.remote _ _ hk hc hq
    have hempty : ((taskSecs css ((tasks info).filter (fun t => t.2.cluster = ti.cluster))).filter (fun t =>
        t.2.1.res = s.2.1.res)) = [] := by
      rw [List.filter_eq_nil_iff]
      intro t ht he
      obtain ⟨ht, hp⟩ := sub_secs ht
      have := same_processor h1 ht hs (of_decide_eq_true he)
      have hp := of_decide_eq_true hp
      exact hc (this.symm.trans hp)
    rw [hempty] at key
    have key : termSum x (((taskSecs css ((tasks info).filter (fun t => t.2.cluster = s.1.2.cluster))).filter (fun t =>
        t.2.1.res = s.2.1.res)).flatMap (csVars css ti 1 .direct)) ≤ 0 := by simpa [termSum] using key
    refine hzero _ (fun t ht => (sub_secs (List.mem_filter.1 ht).1).1) key s ?_
    obtain ⟨h2, h3⟩ := mem_taskSecs.1 hs
    exact List.mem_filter.2 ⟨mem_taskSecs.2 ⟨List.mem_filter.2 ⟨h2, by simp⟩, h3⟩, by simp⟩
  have hlow : ∀ s ∈ taskSecs css (localLowerEq info i ti), isLocalLower info css ti s.2.1.res = true → D s ≤ 0 :=
    fun s hs hl => hzero _ (fun t ht => (sub_secs (List.mem_filter.1 ht).1).1) hf.lower.le s
      (List.mem_filter.2 ⟨hs, hl⟩)
  have harr := hf.arrival
  rw [termSum_flatMap] at harr
  change ((taskSecs css (localLowerEq info i ti)).map D).sum ≤ 1 at harr
  unfold localLowerEq at harr
  rw [sum_taskSecs_filter] at harr
  unfold nestedObjective
  simp only [List.nil_append]
  rw [termSum_flatMap, sum_taskSecs_filter]
  have hB0 : (0 : ℚ) ≤ B := Nat.cast_nonneg _
  refine le_trans (b := (B : ℚ) * ((taskSecs css (tasks info)).map (fun s => if decide (s.1.2.cluster = ti.cluster ∧
    s.1.1 ≠ i ∧ s.1.2.priority ≥ ti.priority) then D s else 0)).sum) ?_ (by nlinarith)
  rw [← List.sum_map_mul_left]
  apply List.sum_le_sum
  intro s hs
  rw [termSum_pairs_eq hf.nested hs]
  change (if _ then (s.2.1.len : ℚ) * D s else 0) ≤ _
  have hp := hpos s hs
  have hl0 : (0 : ℚ) ≤ s.2.1.len := Nat.cast_nonneg _
  have hrhs : (0 : ℚ) ≤ (B : ℚ) * (if decide (s.1.2.cluster = ti.cluster ∧ s.1.1 ≠ i ∧ s.1.2.priority ≥ ti.priority)
      then D s else 0) := by
    apply mul_nonneg hB0
    split_ifs
    · exact hp
    · exact le_rfl
  by_cases hpr : s.1.2.priority > ti.priority ∨ s.1.2.cluster ≠ ti.cluster
  swap
  · rw [if_neg (fun h => hpr (of_decide_eq_true h))]
    exact hrhs
  rw [if_pos (decide_eq_true hpr)]
  by_cases hc : s.1.2.cluster = ti.cluster
  swap
  · have : D s = 0 := le_antisymm (hremote s hs hc) hp
    rw [this, mul_zero]
    rw [this] at hrhs
    exact hrhs
  · have hpr : ti.priority < s.1.2.priority := by
      rcases hpr with h | h
      · exact h
      · exact absurd hc h
    obtain ⟨hx, cs, hcs, hd⟩ := mem_secs_iff.1 hs
    have hne : s.1.1 ≠ i := by
      intro he
      rw [he, hi] at hx
      have := Option.some.inj hx
      rw [← this] at hpr
      omega
    by_cases hl : isLocalLower info css ti s.2.1.res = true
    · have hm : s ∈ taskSecs css (localLowerEq info i ti) := by
        obtain ⟨h2, h3⟩ := mem_taskSecs.1 hs
        exact mem_taskSecs.2 ⟨List.mem_filter.2 ⟨h2, by simp [hc, hne]; omega⟩, h3⟩
      have : D s = 0 := le_antisymm (hlow s hm hl) hp
      rw [this, mul_zero]
      rw [this] at hrhs
      exact hrhs
    · rw [isLocalLower_iff h1 hs hc] at hl
      push Not at hl
      obtain ⟨t, ht, he, hle⟩ := hl
      obtain ⟨ht1, ct, ht2, ht3⟩ := mem_secs_iff.1 ht
      have : s.2.1.len ≤ B := hB _ (Or.inr ⟨_, _, _, _, hx, hcs, List.mem_of_getElem? hd, hc, hpr, rfl,
        _, _, _, _, ht1, ht2, List.mem_of_getElem? ht3, he, hle⟩)
      rw [if_pos (by simp [hc, hne]; omega)]
      have : (s.2.1.len : ℚ) ≤ B := by exact_mod_cast this
      exact mul_le_mul_of_nonneg_right this hp

theorem indicator_sum_le (y d : ℕ) : ∀ L : List TaskSec, L.Pairwise (fun a b => a.1.1 ≠ b.1.1 ∨ a.2.2 ≠ b.2.2) →
    (L.map (fun s => if s.1.1 = y ∧ s.2.2 = d then 1 else 0)).sum ≤ 1 := by
  intro L
  induction L with
  | nil => intro _; simp
  | cons s L ih =>
    intro h
    obtain ⟨h1, h2⟩ := List.pairwise_cons.1 h
    rw [List.map_cons, List.sum_cons]
    split_ifs with hs
    · refine (add_le_iff_nonpos_right 1).2 (le_of_eq (List.sum_eq_zero ?_))
      intro a ha
      obtain ⟨t, ht, rfl⟩ := List.mem_map.1 ha
      rw [if_neg]
      rintro ⟨h3, h4⟩
      rcases h1 t ht with h5 | h5
      · exact h5 (hs.1.trans h3.symm)
      · exact h5 (hs.2.trans h4.symm)
    · have := ih h2
      omega

theorem outer_none (hnest : ∀ cs ∈ css, ∀ c ∈ cs, c.outer = none) : ∀ s ∈ taskSecs css (tasks info), s.2.1.outer = none := by
  intro s hs
  obtain ⟨_, cs, h1, h2⟩ := mem_secs_iff.1 hs
  exact hnest cs (List.mem_of_getElem? h1) _ (List.mem_of_getElem? h2)

/-- An assignment that reaches each length. -/
theorem srp_lower (hone : OneProcessor info css) (houter : ∀ s ∈ taskSecs css (tasks info), s.2.1.outer = none)
    {g : List (Finset ℕ) × CsPaths} (hg : guaranteedHeld info css ti (maxResource info css + 1) = some g) {B : ℕ}
    (hB : B ∈ SrpLengths info css ti) :
    ∃ y, (remoteConstraints info css ti g.2 (arrivalBlockingConstraints info css i ti
      (localResourceConstraints info css i ti (nestingConstraints info css ti (typeConstraints info css ti
        (nestedObjective info css ti {})))))).Feasible y ∧
      (B : ℚ) ≤ termSum y (nestedObjective info css ti {}).objective := by
  rcases hB with h0 | ⟨y, ty, cy, c, h1, h2, h3, h4, h5, h6, z, tz, cz, cd, h7, h8, h9, h10, h11⟩
  · refine ⟨_, feasible_zero info css i ti _ (by unfold nestedProgram; rw [hg]; rfl), ?_⟩
    rw [h0, termSum_zero (x := fun _ => 0) (fun _ _ => rfl)]
    simp
  · obtain ⟨d, hd⟩ := List.mem_iff_getElem?.1 h3
    have hs0 : (((y, ty), c, d) : TaskSec) ∈ taskSecs css (tasks info) := mem_secs_iff.2 ⟨h1, cy, h2, hd⟩
    obtain ⟨dz, hdz⟩ := List.mem_iff_getElem?.1 h9
    have hz0 : (((z, tz), cd, dz) : TaskSec) ∈ taskSecs css (tasks info) := mem_secs_iff.2 ⟨h7, cz, h8, hdz⟩
    have huniq : ∀ s ∈ taskSecs css (tasks info), s.1.1 = y → s.2.2 = d → s = ((y, ty), c, d) := by
      rintro ⟨⟨y', ty'⟩, c', d'⟩ hs rfl rfl
      obtain ⟨e1, cs, e2, e3⟩ := mem_secs_iff.1 hs
      simp only at e1 e2 e3
      rw [h1] at e1
      rw [h2] at e2
      cases Option.some.inj e1
      cases Option.some.inj e2
      rw [hd] at e3
      cases Option.some.inj e3
      rfl
    set N : ℕ → ℕ → ℕ := fun y' d' => if y' = y ∧ d' = d then 1 else 0 with hNdef
    have hN : ∀ s ∈ taskSecs css (tasks info), N s.1.1 s.2.2 ≤ jobsToConsider ti s.1.2 := by
      intro s hs
      simp only [hNdef]
      split_ifs with he
      · rw [huniq s hs he.1 he.2]
        unfold jobsToConsider
        simp only
        rw [if_neg (by simpa using h4), if_neg (by omega)]
      · omega
    have hf := feasible_nested (i := i) g.2 hN houter (by
        intro s hs hl
        simp only [hNdef]
        rw [if_neg]
        rintro ⟨e1, e2⟩
        have := huniq s (sub_secs hs).1 e1 e2
        subst this
        have := (isLocalLower_iff hone hs0 h4).1 hl _ hz0 h10
        simp only at this
        omega)
      (indicator_sum_le y d _ (pairwise_taskSecs ((pairwise_tasks info).filter _))) (by
        intro k hk q
        rw [List.sum_eq_zero]
        · exact Nat.zero_le _
        · intro a ha
          obtain ⟨s, hs, rfl⟩ := List.mem_map.1 ha
          obtain ⟨hs, hp⟩ := sub_secs (List.mem_filter.1 hs).1
          simp only [hNdef]
          rw [if_neg]
          rintro ⟨e1, e2⟩
          have := huniq s hs e1 e2
          subst this
          have hp := of_decide_eq_true hp
          exact hk (hp.symm.trans h4))
    refine ⟨_, hf, ?_⟩
    rw [value_nested hN, h6]
    have hle : c.len ≤ ((taskSecs css ((tasks info).filter (fun t => t.2.priority > ti.priority ∨
        t.2.cluster ≠ ti.cluster))).map (fun s => s.2.1.len * N s.1.1 s.2.2)).sum := by
      refine List.single_le_sum (fun _ _ => Nat.zero_le _) _ (List.mem_map.2 ⟨((y, ty), c, d), ?_, ?_⟩)
      · obtain ⟨e1, e2⟩ := mem_taskSecs.1 hs0
        exact mem_taskSecs.2 ⟨List.mem_filter.2 ⟨e1, by simp [h5]⟩, e2⟩
      · simp [hNdef]
    exact_mod_cast hle

/-- **C142**: if no critical section is nested and no resource is used on two processors, the analysis of nested spin
locks with an optimal solver yields the blocking bound of the stack resource policy for each task: the length of a
longest critical section of a task on the same processor with less priority, for a resource that is used by a task with
at least the same priority as the task under analysis. -/
theorem C142_local_resources (info : Info) (css : List TaskCs) (hnest : ∀ cs ∈ css, ∀ c ∈ cs, c.outer = none)
    (hone : OneProcessor info css) (solve : Solver) (hsolve : ∀ P x, solve P = some x → P.Maximum x)
    (bs : List ℕ) (hbs : nestedBounds solve info css = some bs) (i : ℕ) (ti : TaskInfo) (b : ℕ)
    (hi : info[i]? = some ti) (hb : bs[i]? = some b) : IsGreatest (SrpLengths info css ti) b := by
  obtain ⟨e, hsome⟩ := bounds_eq hbs
  obtain ⟨hlt, hget⟩ := List.getElem?_eq_some_iff.1 hi
  have hs := hsome ⟨i, hlt⟩
  have hb' : b = ((nestedProgram info css i ti).bind (nestedSolve solve)).getD 0 := by
    rw [e, List.getElem?_map] at hb
    obtain ⟨j, hj, rfl⟩ := Option.map_eq_some_iff.1 hb
    have : j = ⟨i, hlt⟩ := by
      obtain ⟨_, hj⟩ := List.getElem?_eq_some_iff.1 hj
      rw [← hj]
      simp
    subst this
    simp only [List.get_eq_getElem, hget]
  simp only [List.get_eq_getElem, hget] at hs
  rcases hP : nestedProgram info css i ti with _ | P
  · rw [hP] at hs
    cases hs
  rw [hP] at hs hb'
  simp only [Option.bind_some, nestedSolve] at hs hb'
  rcases hx : solve P with _ | x
  · rw [hx] at hs
    cases hs
  rw [hx, Option.map_some, Option.getD_some] at hb'
  have hmax := hsolve _ _ hx
  unfold nestedProgram at hP
  obtain ⟨g, hg, rfl⟩ := Option.map_eq_some_iff.1 hP
  have houter := outer_none (info := info) hnest
  obtain ⟨B, hB⟩ := exists_srp info css ti
  suffices b = B by rw [this]; exact hB
  rw [hb', objective_nested]
  apply le_antisymm
  · have := srp_upper hone hi (nested_facts g.2 houter hmax.feasible) (fun L hL => hB.2 hL)
    have h2 : ⌈termSum x (nestedObjective info css ti {}).objective⌉ ≤ (B : ℤ) := Int.ceil_le.2 (by exact_mod_cast this)
    omega
  · apply le_ceil_nat
    have hbest := hmax.best
    rw [objective_nested] at hbest
    obtain ⟨y, h1, h2⟩ := srp_lower hone houter hg hB.1
    exact h2.trans (hbest y h1)

/-- **C142**: in the same setting each task gets a bound, if the solver finds optimal solutions whenever there are any. -/
theorem C142_defined (info : Info) (css : List TaskCs) (hnest : ∀ cs ∈ css, ∀ c ∈ cs, c.outer = none)
    (hone : OneProcessor info css) (solve : Solver) (hsolve : ∀ P x, P.Maximum x → (solve P).isSome) :
    ∃ bs, nestedBounds solve info css = some bs ∧ bs.length = info.length := by
  have hdef : ∀ t ∈ tasks info, ∃ b, (nestedProgram info css t.1 t.2).bind (nestedSolve solve) = some b := by
    intro t ht
    obtain ⟨g, hg⟩ := Option.isSome_iff_exists.1 (guaranteedHeld_isSome (info := info) (css := css) (ti := t.2)
      (maxResource info css + 1) (by
        intro q _ gh _ s hs _ g
        unfold updateGuaranteed
        rw [outer_none hnest s hs]
        split_ifs <;> rfl))
    obtain ⟨B, hB⟩ := exists_srp info css t.2
    obtain ⟨y, h1, h2⟩ := srp_lower (i := t.1) hone (outer_none hnest) hg hB.1
    have hi : info[t.1]? = some t.2 := by
      obtain ⟨k, rfl⟩ := mem_tasks.1 ht
      exact fin_get? k
    obtain ⟨x, hx⟩ := Option.isSome_iff_exists.1 (hsolve _ y ⟨h1, fun z hz => by
      rw [objective_nested]
      exact (srp_upper hone hi (nested_facts g.2 (outer_none hnest) hz) (fun L hL => hB.2 hL)).trans h2⟩)
    refine ⟨⌈termSum x (nestedObjective info css t.2 {}).objective⌉.toNat, ?_⟩
    unfold nestedProgram
    rw [hg, Option.map_some, Option.bind_some, nestedSolve, hx, Option.map_some, objective_nested]
  have key : ∀ l : List (ℕ × TaskInfo), (∀ t ∈ l, t ∈ tasks info) → ∃ bs, l.mapM (fun t =>
      (nestedProgram info css t.1 t.2).bind (nestedSolve solve)) = some bs ∧ bs.length = l.length := by
    intro l
    induction l with
    | nil => intro _; exact ⟨[], rfl, rfl⟩
    | cons t l ih =>
      intro h
      obtain ⟨bs, h1, h2⟩ := ih (fun u hu => h u (List.mem_cons_of_mem _ hu))
      obtain ⟨b, hb⟩ := hdef t (h t (List.mem_cons_self ..))
      refine ⟨b :: bs, ?_, by simp [h2]⟩
      rw [List.mapM_cons, h1, hb]
      rfl
  obtain ⟨bs, h1, h2⟩ := key (tasks info) (fun _ h => h)
  refine ⟨bs, h1, ?_⟩
  rw [h2, tasks_eq]
  simp

/-- Two tasks on processor 0 that use resource 0, and two on processor 1, of which one uses resource 1. -/
def locInfo : Info :=
  [⟨0, 10, 10, 10, 0, 2, []⟩, ⟨1, 10, 10, 10, 0, 5, []⟩, ⟨0, 10, 10, 10, 1, 2, []⟩, ⟨1, 10, 10, 10, 1, 4, []⟩]
def locCss : List TaskCs := [[⟨0, 1, none⟩], [⟨0, 3, none⟩, ⟨0, 2, none⟩], [], [⟨1, 4, none⟩]]

/-- With an optimal solver the bounds are those of the stack resource policy: 3 for the first task and none for the others.
The last task does not block the third, which uses no resource. -/
theorem exLocal : nestedBounds best locInfo locCss = some [3, 0, 0, 0] := by
  have hnest : ∀ cs ∈ locCss, ∀ c ∈ cs, c.outer = none := by decide
  have hone : OneProcessor locInfo locCss := by
    have hd : ∀ y < 4, ∀ z < 4, ∀ ty ∈ locInfo[y]?, ∀ tz ∈ locInfo[z]?, ∀ cy ∈ locCss[y]?, ∀ cz ∈ locCss[z]?,
        ∀ c ∈ cy, ∀ d ∈ cz, c.res = d.res → ty.cluster = tz.cluster := by decide
    intro y z ty tz cy cz c d h1 h2 h3 h4 h5 h6 h7
    exact hd y (List.getElem?_eq_some_iff.1 h1).1 z (List.getElem?_eq_some_iff.1 h2).1 ty h1 tz h2 cy h3 cz h4 c h5 d h6 h7
  obtain ⟨bs, hbs, hlen⟩ := C142_defined locInfo locCss hnest hone best (by
    intro P x hx
    have h : ∃ x, P.Maximum x := ⟨x, hx⟩
    unfold best
    rw [dif_pos h]
    rfl)
  have hall : ∀ i < 4, ∀ ti ∈ locInfo[i]?, ∀ b, bs[i]? = some b → IsGreatest (SrpLengths locInfo locCss ti) b :=
    fun i _ ti hi b hb => C142_local_resources _ _ hnest hone best best_maximum bs hbs i ti b hi hb
  have hub : ∀ (ti : TaskInfo) (B : ℕ), (∀ y < 4, ∀ ty ∈ locInfo[y]?, ∀ cy ∈ locCss[y]?, ∀ c ∈ cy,
      ty.cluster = ti.cluster → ti.priority < ty.priority → ∀ z < 4, ∀ tz ∈ locInfo[z]?, ∀ cz ∈ locCss[z]?, ∀ d ∈ cz,
      d.res = c.res → tz.priority ≤ ti.priority → c.len ≤ B) → ∀ L ∈ SrpLengths locInfo locCss ti, L ≤ B := by
    rintro ti B h L (h' | ⟨y, ty, cy, c, h1, h2, h3, h4, h5, h6, z, tz, cz, d, h7, h8, h9, h10, h11⟩)
    · omega
    · rw [h6]
      exact h y (List.getElem?_eq_some_iff.1 h1).1 ty h1 cy h2 c h3 h4 h5 z (List.getElem?_eq_some_iff.1 h7).1 tz h7 cz h8
        d h9 h10 h11
  have hlen' : bs.length = 4 := hlen
  match bs, hlen' with
  | [b0, b1, b2, b3], _ =>
    have g0 := hall 0 (by omega) _ rfl b0 rfl
    have g1 := hall 1 (by omega) _ rfl b1 rfl
    have g2 := hall 2 (by omega) _ rfl b2 rfl
    have g3 := hall 3 (by omega) _ rfl b3 rfl
    have e0 : 3 ≤ b0 := g0.2 (Or.inr ⟨1, ⟨1, 10, 10, 10, 0, 5, []⟩, [⟨0, 3, none⟩, ⟨0, 2, none⟩], ⟨0, 3, none⟩, rfl, rfl,
      by simp, rfl, by decide, rfl, 0, ⟨0, 10, 10, 10, 0, 2, []⟩, [⟨0, 1, none⟩], ⟨0, 1, none⟩, rfl, rfl, by simp, rfl,
      by decide⟩)
    have f0 := hub _ 3 (by decide) _ g0.1
    have f1 := hub _ 0 (by decide) _ g1.1
    have f2 := hub _ 0 (by decide) _ g2.1
    have f3 := hub _ 0 (by decide) _ g3.1
    rw [hbs, show b0 = 3 by omega, show b1 = 0 by omega, show b2 = 0 by omega, show b3 = 0 by omega]

end Verif.SR.Lp
