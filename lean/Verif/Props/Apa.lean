/-
Properties C43 and C78: the partitioning and semi-partitioning heuristics of
`schedcat/mapping/apa.py`.

For feasible tasks and processors that are schedulable before, every heuristic ends;
each task ends up on allowed processors, as a whole or in parts that together are the
task, or (the last part of it) among the unassigned tasks; and each processor is
EDF-schedulable.  The orders of iteration over sets are arbitrary.
-/
import Verif.Lemmas.ApaHeur
import Mathlib.Data.Fin.VecNotation

namespace Verif.Apa
open Verif.Native Verif.Spec

/-- Feasible tasks with distinct identifiers. -/
def GoodTasks (tasks : List ATask) : Prop := (∀ t ∈ tasks, Proper t) ∧ (tasks.map ATask.id).Nodup

/-- The tasks assigned before are feasible and schedulable. -/
def GoodPre (pre : Assign) : Prop := ∀ c, (∀ t ∈ pre c, Proper t) ∧ CoreSchedulable (pre c)

theorem good_iff {pre : Assign} : Good pre ↔ GoodPre pre := by
  unfold Good GoodPre Ok
  constructor
  · exact fun h c => ⟨(h c).1, (coreSchedulable_iff (h c).1).2 (h c).2⟩
  · exact fun h c => ⟨(h c).1, (coreSchedulable_iff (h c).1).1 (h c).2⟩

theorem good_empty : Good (fun _ => []) := fun _ => ⟨by simp, fun x => by simp [dem, TaskSet.boundDemand]⟩

/-- The result of a (semi-)partitioning heuristic is right: all tasks are accounted for
and all processors are schedulable. -/
def Right (minChunk : ℕ) (tasks : List ATask) (pre : Assign) (un : List ATask) (asg : Assign) : Prop :=
  Accounted minChunk tasks pre un asg ∧ (∀ t ∈ un, Proper t) ∧
    ∀ c, (∀ t ∈ asg c, Proper t) ∧ CoreSchedulable (asg c)

theorem Reach.right {k : ℕ} {s : Bool} {pre asg : Assign} {tasks un : List ATask}
    (h : Reach k s pre tasks un asg) (hp : ∀ t ∈ tasks, Proper t) (hg : Good pre) :
    Right k tasks pre un asg := by
  obtain ⟨g1, g2, _⟩ := h.good hp hg
  exact ⟨h.accounted hp hg, g1, good_iff.1 g2⟩

theorem Reach.subset {k : ℕ} {pre asg : Assign} {tasks un : List ATask}
    (h : Reach k false pre tasks un asg) : un.Subperm tasks := by
  induction h with
  | start h => exact h.subperm
  | place _ b _ _ ih =>
    exact ((List.sublist_cons_self _ _).subperm.trans b.symm.subperm).trans ih
  | split _ b => cases b

theorem not_ok_iff {ts : List ATask} {u : ATask} (h : ∀ t ∈ ts, Proper t) (hu : Proper u) :
    ¬ Ok (ts ++ [u]) ↔ ¬ CoreSchedulable (ts ++ [u]) := by
  rw [coreSchedulable_iff (proper_append h hu)]; rfl

variable {ord : Order}

/-- **C43**, worst fit ends. -/
theorem C43_worst_fit_ends (hot : ∀ l, (ord.tasks l).Perm l) (hoc : ∀ l, (ord.cores l).Perm l)
    (o : Options) (tasks : List ATask) (pre : Assign) (hp : ∀ t ∈ tasks, Proper t) (hg : GoodPre pre) :
    ∃ N r, ∀ fuel ≥ N, worstFit ord fuel o tasks pre = some r := by
  obtain ⟨N, r, h⟩ := wfLoop_ends hot hoc o ((tasks.map ATask.cost).sum + 1) tasks pre (by omega) hp
    (good_iff.2 hg)
  exact ⟨max N ((tasks.map ATask.cost).sum + 1), r, fun fuel hf => h fuel (by omega) fuel (by omega)⟩

/-- **C43**, worst fit: the result is right, without splits no task is split, and an
unassigned task fits on none of the processors it may use. -/
theorem C43_worst_fit (hot : ∀ l, (ord.tasks l).Perm l) (hoc : ∀ l, (ord.cores l).Perm l)
    (fuel : ℕ) (o : Options) (tasks : List ATask) (pre : Assign) (hp : ∀ t ∈ tasks, Proper t)
    (hg : GoodPre pre) (un : List ATask) (asg : Assign)
    (h : worstFit ord fuel o tasks pre = some (un, asg)) :
    Right o.minChunk tasks pre un asg ∧
    (o.withSplits = false → un.Subperm tasks ∧ ∀ k, Right k tasks pre un asg) ∧
    ∀ u ∈ un, ∀ c ∈ u.affinity, ¬ CoreSchedulable (asg c ++ [u]) := by
  obtain ⟨h1, h2⟩ := wfLoop_spec hot hoc o fuel fuel tasks pre un asg hp (good_iff.2 hg) h
  obtain ⟨g1, g2, _⟩ := h1.good hp (good_iff.2 hg)
  refine ⟨h1.right hp (good_iff.2 hg), fun hs => ?_, fun u hu c hc => ?_⟩
  · rw [hs] at h1
    exact ⟨h1.subset, fun k => (h1.weaken k true).right hp (good_iff.2 hg)⟩
  · exact (not_ok_iff (g2 c).1 (g1 u hu)).1 (h2 u hu c hc)

/-- What a heuristic of any number of stages does. -/
def Sound (k : ℕ) (s : Bool) (h : ℕ → Heuristic) : Prop :=
  ∀ tasks pre, GoodTasks tasks → Good pre → Ends (fun fuel => h fuel tasks pre) ∧
    ∀ fuel un asg, h fuel tasks pre = some (un, asg) → Reach k s pre tasks un asg

theorem Sound.weaken {k : ℕ} {h : ℕ → Heuristic} (hs : Sound k false h) (k' : ℕ) (s' : Bool) :
    Sound k' s' h := fun tasks pre ht hg =>
  ⟨(hs tasks pre ht hg).1, fun fuel un asg he => ((hs tasks pre ht hg).2 fuel un asg he).weaken k' s'⟩

theorem worstFit_sound (hot : ∀ l, (ord.tasks l).Perm l) (hoc : ∀ l, (ord.cores l).Perm l) (o : Options) :
    Sound o.minChunk o.withSplits (fun fuel => worstFit ord fuel o) := by
  intro tasks pre ht hg
  refine ⟨C43_worst_fit_ends hot hoc o tasks pre ht.1 (good_iff.1 hg), fun fuel un asg h => ?_⟩
  exact (wfLoop_spec hot hoc o fuel fuel tasks pre un asg ht.1 hg h).1

theorem firstFit_sound (hot : ∀ l, (ord.tasks l).Perm l) (s : Bool) (k : ℕ) (allCores : Option (List ℕ)) :
    Sound k s (fun fuel => firstFit ord fuel s k allCores) := by
  intro tasks pre ht hg
  have := ffLoop_spec hot s k (allCores.getD (ord.cores (tasks.flatMap ATask.affinity).dedup))
    (initialAffinity tasks) tasks pre
    (fun t h => ⟨ht.1 t h, fun c hc => by rwa [initialAffinity_eq ht.2 h] at hc⟩) hg
  exact ⟨this.1, fun fuel un asg h => (this.2 fuel un asg h).1⟩

/-- **C43**, first fit ends. -/
theorem C43_first_fit_ends (hot : ∀ l, (ord.tasks l).Perm l) (withSplits : Bool) (minChunk : ℕ)
    (allCores : Option (List ℕ)) (tasks : List ATask) (pre : Assign) (ht : GoodTasks tasks)
    (hg : GoodPre pre) :
    ∃ N r, ∀ fuel ≥ N, firstFit ord fuel withSplits minChunk allCores tasks pre = some r :=
  (firstFit_sound hot withSplits minChunk allCores tasks pre ht (good_iff.2 hg)).1

/-- **C43**, first fit: the result is right; without splits no task is split and an
unassigned task fits on none of the processors it may use (among the given ones). -/
theorem C43_first_fit (hot : ∀ l, (ord.tasks l).Perm l) (hoc : ∀ l, (ord.cores l).Perm l)
    (fuel : ℕ) (withSplits : Bool) (minChunk : ℕ) (allCores : Option (List ℕ)) (tasks : List ATask)
    (pre : Assign) (ht : GoodTasks tasks) (hg : GoodPre pre) (un : List ATask) (asg : Assign)
    (h : firstFit ord fuel withSplits minChunk allCores tasks pre = some (un, asg)) :
    Right minChunk tasks pre un asg ∧
    (withSplits = false → un.Subperm tasks ∧ (∀ k, Right k tasks pre un asg) ∧
      ∀ u ∈ un, ∀ c ∈ u.affinity, (∀ cs, allCores = some cs → c ∈ cs) →
        ¬ CoreSchedulable (asg c ++ [u])) := by
  have hs := ffLoop_spec hot withSplits minChunk
    (allCores.getD (ord.cores (tasks.flatMap ATask.affinity).dedup))
    (initialAffinity tasks) tasks pre
    (fun t h => ⟨ht.1 t h, fun c hc => by rwa [initialAffinity_eq ht.2 h] at hc⟩) (good_iff.2 hg)
  obtain ⟨h1, h2⟩ := hs.2 fuel un asg h
  obtain ⟨g1, g2, _⟩ := h1.good ht.1 (good_iff.2 hg)
  refine ⟨h1.right ht.1 (good_iff.2 hg), fun hsp => ?_⟩
  have hsub : un.Subperm tasks := by rw [hsp] at h1; exact h1.subset
  refine ⟨hsub, fun k => ?_, fun u hu c hc hcs => ?_⟩
  · rw [hsp] at h1
    exact (h1.weaken k true).right ht.1 (good_iff.2 hg)
  · apply (not_ok_iff (g2 c).1 (g1 u hu)).1
    rcases h2 hsp (fun v hv c' hc' => Or.inl (by rwa [initialAffinity_eq ht.2 hv])) u hu c hc with
      ⟨_, h3⟩ | h3
    · exfalso
      apply h3
      cases hac : allCores with
      | none =>
        simp only [Option.getD_none]
        rw [(hoc _).mem_iff, List.mem_dedup, List.mem_flatMap]
        exact ⟨u, hsub.subset hu, hc⟩
      | some cs => exact hcs cs hac
    · exact h3

theorem doubleWfd_sound (hot : ∀ l, (ord.tasks l).Perm l) (hoc : ∀ l, (ord.cores l).Perm l)
    (cores : List ℕ) (s : Bool) (k : ℕ) :
    Sound k s (fun fuel => doubleWfd ord fuel cores s k) := by
  intro tasks pre ht hg
  obtain ⟨a1, a2⟩ := worstFit_sound hot hoc ⟨s, k, false⟩ tasks pre ht hg
  obtain ⟨b1, b2⟩ := worstFit_sound hot hoc ⟨s, k, true⟩ tasks pre ht hg
  constructor
  · refine Ends.bind a1 (fun fuel r1 _ => ?_)
    cases s with
    | false => exact Ends.pure _
    | true =>
      simp only [Bool.not_true, Bool.false_eq_true, if_false]
      refine Ends.bind b1 (fun fuel r2 _ => ?_)
      split
      · exact Ends.pure _
      · split
        · split <;> exact Ends.pure _
        · exact Ends.pure _
  · intro fuel un asg h
    unfold doubleWfd at h
    simp only [Option.bind_eq_bind, Option.bind_eq_some_iff] at h
    obtain ⟨r1, h1, h⟩ := h
    have k1 := a2 fuel r1.1 r1.2 h1
    cases s with
    | false =>
      simp only [Bool.not_false, if_true, Option.pure_def, Option.some.injEq] at h
      rw [h] at k1; exact k1
    | true =>
      simp only [Bool.not_true, Bool.false_eq_true, if_false, Option.bind_eq_some_iff] at h
      obtain ⟨r2, h2, h⟩ := h
      have k2 := b2 fuel r2.1 r2.2 h2
      simp only [Option.pure_def] at h
      split_ifs at h <;> simp only [Option.some.injEq] at h <;>
        first
        | (rw [h] at k1; exact k1)
        | (rw [h] at k2; exact k2)

/-- **C43**, the combination of both worst-fit variants: it ends, its result is right, it
is the result of one of the variants, and it leaves no more tasks unassigned than either
of them. -/
theorem C43_double_worst_fit (hot : ∀ l, (ord.tasks l).Perm l) (hoc : ∀ l, (ord.cores l).Perm l)
    (cores : List ℕ) (minChunk : ℕ) (tasks : List ATask) (pre : Assign) (ht : GoodTasks tasks)
    (hg : GoodPre pre) :
    (∃ N r, ∀ fuel ≥ N, doubleWfd ord fuel cores true minChunk tasks pre = some r) ∧
    ∀ fuel un asg, doubleWfd ord fuel cores true minChunk tasks pre = some (un, asg) →
      Right minChunk tasks pre un asg ∧
      ∃ r1 r2, worstFit ord fuel ⟨true, minChunk, false⟩ tasks pre = some r1 ∧
        worstFit ord fuel ⟨true, minChunk, true⟩ tasks pre = some r2 ∧
        ((un, asg) = r1 ∨ (un, asg) = r2) ∧ un.length ≤ r1.1.length ∧ un.length ≤ r2.1.length := by
  obtain ⟨s1, s2⟩ := doubleWfd_sound hot hoc cores true minChunk tasks pre ht (good_iff.2 hg)
  refine ⟨s1, fun fuel un asg h => ⟨(s2 fuel un asg h).right ht.1 (good_iff.2 hg), ?_⟩⟩
  unfold doubleWfd at h
  simp only [Option.bind_eq_bind, Option.bind_eq_some_iff, Bool.not_true, Bool.false_eq_true,
    if_false, Option.pure_def] at h
  obtain ⟨r1, h1, r2, h2, h⟩ := h
  refine ⟨r1, r2, h1, h2, ?_⟩
  split_ifs at h with c1 c2 c3 <;> simp only [Option.some.injEq] at h <;> subst h
  · exact ⟨Or.inl rfl, le_rfl, c1.le⟩
  · exact ⟨Or.inl rfl, le_rfl, c2.le⟩
  · exact ⟨Or.inr rfl, c2.ge, le_rfl⟩
  · exact ⟨Or.inr rfl, by simp only at c1 ⊢; omega, le_rfl⟩

theorem goodTasks_of_subperm {l tasks : List ATask} (h : l.Subperm tasks) (ht : GoodTasks tasks) :
    GoodTasks l := by
  refine ⟨fun t hm => ht.1 t (h.subset hm), ?_⟩
  obtain ⟨l', hp, hs⟩ := h
  exact (hp.map ATask.id).nodup_iff.1 (ht.2.sublist (hs.map _))

theorem Reach.goodTasks {k : ℕ} {s : Bool} {pre asg : Assign} {tasks un : List ATask}
    (h : Reach k s pre tasks un asg) (ht : GoodTasks tasks) (hg : Good pre) : GoodTasks un := by
  obtain ⟨g1, _, g3⟩ := h.good ht.1 hg
  refine ⟨g1, ?_⟩
  obtain ⟨l', hp, hs⟩ := g3
  exact hp.nodup_iff.1 (ht.2.sublist hs)

theorem twoStage_sound {first rest split : ℕ → Heuristic} {k : ℕ} (hf : Sound k true first)
    (hr : Sound k true rest) (hs : Sound k true split) (small : Bool) (tasks : List ATask)
    (ht : GoodTasks tasks) :
    Ends (fun fuel => twoStage (first fuel) (rest fuel) (split fuel) k small tasks) ∧
    ∀ fuel un asg, twoStage (first fuel) (rest fuel) (split fuel) k small tasks = some (un, asg) →
      Reach k true (fun _ => []) tasks un asg := by
  have hsplit : ∀ un asg, GoodTasks un → Good asg →
      Ends (fun fuel => if un.isEmpty then some (un, asg) else split fuel un asg) := by
    intro un asg hu ha
    by_cases he : un.isEmpty = true
    · simp only [he, if_true]; exact Ends.pure _
    · simp only [he, if_false]
      exact (hs un asg hu ha).1
  have hsplit2 : ∀ fuel un asg un' asg', GoodTasks un → Good asg →
      (if un.isEmpty then some (un, asg) else split fuel un asg) = some (un', asg') →
      Reach k true asg un un' asg' := by
    intro fuel un asg un' asg' hu ha h
    by_cases he : un.isEmpty = true
    · simp only [he, if_true, Option.some.injEq, Prod.mk.injEq] at h
      obtain ⟨rfl, rfl⟩ := h
      exact .start (List.Perm.refl _)
    · rw [if_neg he] at h
      exact (hs un asg hu ha).2 fuel un' asg' h
  -- the part before splitting
  have hfirst : Ends (fun fuel => beforeSplit (first fuel) (rest fuel) k small tasks) ∧
      ∀ fuel un asg, beforeSplit (first fuel) (rest fuel) k small tasks = some (un, asg) →
        Reach k true (fun _ => []) tasks un asg := by
    unfold beforeSplit
    have h0 := hf tasks _ ht good_empty
    by_cases hc : (decide (k ≠ 0) && small) = true
    · simp only [hc, if_true]
      by_cases he : (tasks.filter (fun t => decide (t.cost < k * 2))).isEmpty = true
      · simp only [he, if_true]; exact h0
      · simp only [if_neg he]
        have hperm : (tasks.filter (fun t => decide (t.cost < k * 2)) ++
            tasks.filter (fun t => decide (k * 2 ≤ t.cost))).Perm tasks := by
          have := List.filter_append_perm (fun t : ATask => decide (t.cost < k * 2)) tasks
          have e : (fun t : ATask => decide (k * 2 ≤ t.cost)) = fun t : ATask => !decide (t.cost < k * 2) := by
            funext t
            rw [← decide_not]
            simp only [not_lt]
          rw [e]
          exact this
        have hA : GoodTasks (tasks.filter (fun t => decide (t.cost < k * 2))) :=
          goodTasks_of_subperm List.filter_sublist.subperm ht
        obtain ⟨e1, e2⟩ := hf _ _ hA good_empty
        have hmid : ∀ fuel r, first fuel (tasks.filter (fun t => decide (t.cost < k * 2))) (fun _ => []) =
            some r → Reach k true (fun _ => []) tasks
              (r.1 ++ tasks.filter (fun t => decide (k * 2 ≤ t.cost))) r.2 :=
          fun fuel r h => ((e2 fuel r.1 r.2 h).frame _).of_perm hperm
        constructor
        · refine Ends.bind e1 (fun fuel r h => ?_)
          have hm := hmid fuel r h
          exact (hr _ _ (hm.goodTasks ht good_empty) (hm.good ht.1 good_empty).2.1).1
        · intro fuel un asg h
          rw [Option.bind_eq_some_iff] at h
          obtain ⟨r, h1, h2⟩ := h
          have hm := hmid fuel r h1
          exact hm.trans ((hr _ _ (hm.goodTasks ht good_empty) (hm.good ht.1 good_empty).2.1).2 fuel un asg h2)
    · simp only [hc, if_false]; exact h0
  unfold twoStage
  constructor
  · refine Ends.bind hfirst.1 (fun fuel r h => ?_)
    have hm := hfirst.2 fuel r.1 r.2 h
    exact hsplit r.1 r.2 (hm.goodTasks ht good_empty) (hm.good ht.1 good_empty).2.1
  · intro fuel un asg h
    rw [Option.bind_eq_some_iff] at h
    obtain ⟨r, h1, h2⟩ := h
    have hm := hfirst.2 fuel r.1 r.2 h1
    exact hm.trans (hsplit2 fuel r.1 r.2 un asg (hm.goodTasks ht good_empty)
      (hm.good ht.1 good_empty).2.1 h2)

theorem stage_sound (hot : ∀ l, (ord.tasks l).Perm l) (hoc : ∀ l, (ord.cores l).Perm l)
    (cores : List ℕ) (k : ℕ) (small : Bool) (tasks : List ATask) (ht : GoodTasks tasks) (i : Fin 4) :
    Ends (fun fuel => (![assignWfdWfd ord fuel cores k small, assignFfdWfd ord fuel cores k small,
      assignWfdFfd ord fuel cores k small, assignFfdFfd ord fuel k small] i) tasks) ∧
    ∀ fuel un asg, (![assignWfdWfd ord fuel cores k small, assignFfdWfd ord fuel cores k small,
      assignWfdFfd ord fuel cores k small, assignFfdFfd ord fuel k small] i) tasks = some (un, asg) →
      Reach k true (fun _ => []) tasks un asg := by
  have w0 : Sound k true (fun fuel => doubleWfd ord fuel cores false 0) :=
    (doubleWfd_sound hot hoc cores false 0).weaken k true
  have w1 := doubleWfd_sound hot hoc cores true k
  have f0 : Sound k true (fun fuel => firstFit ord fuel false 0 none) :=
    (firstFit_sound hot false 0 none).weaken k true
  have f1 := firstFit_sound hot true k none
  match i with
  | 0 => exact twoStage_sound w0 w0 w1 small tasks ht
  | 1 => exact twoStage_sound f0 w0 w1 small tasks ht
  | 2 => exact twoStage_sound w0 w0 f1 small tasks ht
  | 3 => exact twoStage_sound f0 f0 f1 small tasks ht

/-- **C43**, the heuristics WWFD, FWFD, WFFD and FFFD: each ends and its result is
right. -/
theorem C43_two_stage (hot : ∀ l, (ord.tasks l).Perm l) (hoc : ∀ l, (ord.cores l).Perm l)
    (cores : List ℕ) (minChunk : ℕ) (preAssignSmall : Bool) (tasks : List ATask) (ht : GoodTasks tasks) :
    (∃ N, ∀ fuel ≥ N, assignWfdWfd ord fuel cores minChunk preAssignSmall tasks ≠ none ∧
      assignFfdWfd ord fuel cores minChunk preAssignSmall tasks ≠ none ∧
      assignWfdFfd ord fuel cores minChunk preAssignSmall tasks ≠ none ∧
      assignFfdFfd ord fuel minChunk preAssignSmall tasks ≠ none) ∧
    ∀ fuel un asg,
      (assignWfdWfd ord fuel cores minChunk preAssignSmall tasks = some (un, asg) ∨
       assignFfdWfd ord fuel cores minChunk preAssignSmall tasks = some (un, asg) ∨
       assignWfdFfd ord fuel cores minChunk preAssignSmall tasks = some (un, asg) ∨
       assignFfdFfd ord fuel minChunk preAssignSmall tasks = some (un, asg)) →
      Right minChunk tasks (fun _ => []) un asg := by
  have hs := fun i => stage_sound hot hoc cores minChunk preAssignSmall tasks ht i
  constructor
  · obtain ⟨N0, r0, h0⟩ := (hs 0).1
    obtain ⟨N1, r1, h1⟩ := (hs 1).1
    obtain ⟨N2, r2, h2⟩ := (hs 2).1
    obtain ⟨N3, r3, h3⟩ := (hs 3).1
    refine ⟨max (max N0 N1) (max N2 N3), fun fuel hf => ⟨?_, ?_, ?_, ?_⟩⟩
    · exact fun h => Option.some_ne_none _ ((h0 fuel (by omega)).symm.trans h)
    · exact fun h => Option.some_ne_none _ ((h1 fuel (by omega)).symm.trans h)
    · exact fun h => Option.some_ne_none _ ((h2 fuel (by omega)).symm.trans h)
    · exact fun h => Option.some_ne_none _ ((h3 fuel (by omega)).symm.trans h)
  · rintro fuel un asg (h | h | h | h)
    · exact ((hs 0).2 fuel un asg h).right ht.1 good_empty
    · exact ((hs 1).2 fuel un asg h).right ht.1 good_empty
    · exact ((hs 2).2 fuel un asg h).right ht.1 good_empty
    · exact ((hs 3).2 fuel un asg h).right ht.1 good_empty

theorem preassignLoop_succ (pre : List ATask → Option (List ATask × Assign)) (regular : Heuristic)
    (all : List ATask) (rounds : ℕ) (ids : List ℕ) :
    preassignLoop pre regular all (rounds + 1) ids =
      (pre (all.filter (fun t => ids.contains t.id))).bind (fun r1 =>
        (regular (all.filter (fun t => !ids.contains t.id) ++ r1.1) r1.2).bind (fun r2 =>
          if r2.1.isEmpty || !r1.1.isEmpty then some r2
          else preassignLoop pre regular all rounds (ids ++ r2.1.map ATask.id))) := rfl

section preassign
variable {k : ℕ} {pre : ℕ → List ATask → Option (List ATask × Assign)} {regular : ℕ → Heuristic}
  (hpre : ∀ tasks, GoodTasks tasks → Ends (fun fuel => pre fuel tasks) ∧
    ∀ fuel un asg, pre fuel tasks = some (un, asg) → Reach k true (fun _ => []) tasks un asg)
  (hreg : Sound k true regular) {all : List ATask} (ht : GoodTasks all)
include hpre hreg ht

theorem preassign_round (ids : List ℕ) {fuel : ℕ} {r1 : List ATask × Assign}
    (h1 : pre fuel (all.filter (fun t => ids.contains t.id)) = some r1) :
    Reach k true (fun _ => []) all (all.filter (fun t => !ids.contains t.id) ++ r1.1) r1.2 := by
  have hA : GoodTasks (all.filter (fun t => ids.contains t.id)) :=
    goodTasks_of_subperm List.filter_sublist.subperm ht
  have := ((hpre _ hA).2 fuel r1.1 r1.2 h1).frame (all.filter (fun t => !ids.contains t.id))
  exact (this.of_perm (List.filter_append_perm _ _)).perm List.perm_append_comm

theorem preassignLoop_ends (n : ℕ) : ∀ ids : List ℕ,
    (all.filter (fun t => !ids.contains t.id)).length < n →
    ∃ N r, ∀ fuel ≥ N, ∀ rounds ≥ n, preassignLoop (pre fuel) (regular fuel) all rounds ids = some r := by
  induction n with
  | zero => intro ids h; omega
  | succ n ih =>
    intro ids hlt
    have hA : GoodTasks (all.filter (fun t => ids.contains t.id)) :=
      goodTasks_of_subperm List.filter_sublist.subperm ht
    obtain ⟨N1, r1, hN1⟩ := (hpre _ hA).1
    have hm := preassign_round hpre hreg ht ids (hN1 N1 le_rfl)
    obtain ⟨e1, e2⟩ := hreg _ _ (hm.goodTasks ht good_empty) (hm.good ht.1 good_empty).2.1
    obtain ⟨N2, r2, hN2⟩ := e1
    simp only at hN1 hN2
    have hm2 := e2 N2 r2.1 r2.2 (hN2 N2 le_rfl)
    by_cases hc : (r2.1.isEmpty || !r1.1.isEmpty) = true
    · refine ⟨max N1 N2, r2, fun fuel hf rounds hr => ?_⟩
      obtain ⟨rounds', rfl⟩ : ∃ q, rounds = q + 1 := ⟨rounds - 1, by omega⟩
      rw [preassignLoop_succ, hN1 fuel (by omega), Option.bind_some, hN2 fuel (by omega),
        Option.bind_some, if_pos hc]
    · have hcc := hc
      rw [Bool.or_eq_true, not_or, Bool.not_eq_true, Bool.not_eq_true, Bool.not_eq_false',
        List.isEmpty_iff, ← Bool.not_eq_true, List.isEmpty_iff] at hcc
      obtain ⟨h2ne, h1e⟩ := hcc
      have hsub := (hm2.good (hm.good ht.1 good_empty).1 (hm.good ht.1 good_empty).2.1).2.2
      rw [h1e, List.append_nil] at hsub
      have hlt2 : (all.filter (fun t => !(ids ++ r2.1.map ATask.id).contains t.id)).length < n := by
        have hle : (all.filter (fun t => !(ids ++ r2.1.map ATask.id).contains t.id)).length <
            (all.filter (fun t => !ids.contains t.id)).length := by
          have hsl : (all.filter (fun t => !(ids ++ r2.1.map ATask.id).contains t.id)).Sublist
              (all.filter (fun t => !ids.contains t.id)) := by
            apply List.monotone_filter_right
            intro t h
            simp only [Bool.not_eq_true', ← Bool.not_eq_true, List.contains_iff_mem,
              List.mem_append, not_or] at h ⊢
            exact h.1
          rcases Nat.lt_or_ge (all.filter (fun t => !(ids ++ r2.1.map ATask.id).contains t.id)).length
            (all.filter (fun t => !ids.contains t.id)).length with h | h
          · exact h
          · exfalso
            have heq := hsl.eq_of_length_le h
            obtain ⟨u, hu⟩ := List.exists_mem_of_ne_nil _ h2ne
            have hu2 := hsub.subset (List.mem_map.2 ⟨u, hu, rfl⟩)
            obtain ⟨v, hv, hvid⟩ := List.mem_map.1 hu2
            rw [← heq, List.mem_filter, Bool.not_eq_true', ← Bool.not_eq_true, List.contains_iff_mem,
              List.mem_append, not_or] at hv
            exact hv.2.2 (List.mem_map.2 ⟨u, hu, hvid.symm⟩)
        omega
      obtain ⟨N3, r, hN3⟩ := ih _ hlt2
      refine ⟨max (max N1 N2) N3, r, fun fuel hf rounds hr => ?_⟩
      obtain ⟨rounds', rfl⟩ : ∃ q, rounds = q + 1 := ⟨rounds - 1, by omega⟩
      rw [preassignLoop_succ, hN1 fuel (by omega), Option.bind_some, hN2 fuel (by omega),
        Option.bind_some, if_neg hc]
      exact hN3 fuel (by omega) rounds' (by omega)

theorem preassignLoop_spec (fuel rounds : ℕ) : ∀ (ids : List ℕ) (un : List ATask) (asg : Assign),
    preassignLoop (pre fuel) (regular fuel) all rounds ids = some (un, asg) →
    Reach k true (fun _ => []) all un asg := by
  induction rounds with
  | zero => intro ids un asg h; cases h
  | succ n ih =>
    intro ids un asg h
    rw [preassignLoop_succ, Option.bind_eq_some_iff] at h
    obtain ⟨r1, h1, h⟩ := h
    rw [Option.bind_eq_some_iff] at h
    obtain ⟨r2, h2, h⟩ := h
    split at h
    · have hm := preassign_round hpre hreg ht ids h1
      obtain ⟨_, e2⟩ := hreg _ _ (hm.goodTasks ht good_empty) (hm.good ht.1 good_empty).2.1
      have := e2 fuel r2.1 r2.2 h2
      rw [Option.some.injEq] at h
      rw [h] at this
      exact hm.trans this
    · exact ih _ _ _ h

theorem preassign_sound :
    (∃ N r, ∀ fuel ≥ N, ∀ rounds ≥ N,
      preassignFailures (pre fuel) (regular fuel) rounds all = some r) ∧
    ∀ fuel rounds un asg, preassignFailures (pre fuel) (regular fuel) rounds all = some (un, asg) →
      Reach k true (fun _ => []) all un asg := by
  obtain ⟨⟨N, r, hN⟩, e2⟩ := hreg all _ ht good_empty
  simp only at hN
  have heq : ∀ fuel rounds, preassignFailures (pre fuel) (regular fuel) rounds all =
      (regular fuel all (fun _ => [])).bind (fun r =>
        if r.1.isEmpty then some r
        else preassignLoop (pre fuel) (regular fuel) all rounds (r.1.map ATask.id)) := fun _ _ => rfl
  simp only [heq]
  constructor
  · by_cases hc : r.1.isEmpty = true
    · exact ⟨N, r, fun fuel hf _ _ => by rw [hN fuel hf, Option.bind_some, if_pos hc]⟩
    · obtain ⟨M, q, hM⟩ := preassignLoop_ends hpre hreg ht
        ((all.filter (fun t => !(r.1.map ATask.id).contains t.id)).length + 1) (r.1.map ATask.id) (by omega)
      refine ⟨max (max N M) ((all.filter (fun t => !(r.1.map ATask.id).contains t.id)).length + 1), q,
        fun fuel hf rounds hr => ?_⟩
      rw [hN fuel (by omega), Option.bind_some, if_neg hc]
      exact hM fuel (by omega) rounds (by omega)
  · intro fuel rounds un asg h
    rw [Option.bind_eq_some_iff] at h
    obtain ⟨r, h1, h⟩ := h
    split at h
    · rw [Option.some.injEq] at h
      have := e2 fuel r.1 r.2 h1
      rw [h] at this
      exact this
    · exact preassignLoop_spec hpre hreg ht fuel rounds _ _ _ h

end preassign

/-- **C43**, the meta-heuristic PAF, with a two-stage heuristic for the failed tasks (or
first fit with splits) and 2WFD for the rest: it ends and its result is right. -/
theorem C43_preassign_failures (hot : ∀ l, (ord.tasks l).Perm l) (hoc : ∀ l, (ord.cores l).Perm l)
    (cores : List ℕ) (minChunk : ℕ) (preAssignSmall : Bool) (tasks : List ATask) (ht : GoodTasks tasks) :
    (∃ N r, ∀ fuel ≥ N, ∀ rounds ≥ N,
      preassignFailures (assignWfdWfd ord fuel cores minChunk preAssignSmall)
        (doubleWfd ord fuel cores true minChunk) rounds tasks = some r) ∧
    (∃ N r, ∀ fuel ≥ N, ∀ rounds ≥ N,
      preassignFailures (fun ts => firstFit ord fuel true minChunk none ts (fun _ => []))
        (doubleWfd ord fuel cores true minChunk) rounds tasks = some r) ∧
    ∀ fuel rounds un asg,
      (preassignFailures (assignWfdWfd ord fuel cores minChunk preAssignSmall)
          (doubleWfd ord fuel cores true minChunk) rounds tasks = some (un, asg) ∨
       preassignFailures (fun ts => firstFit ord fuel true minChunk none ts (fun _ => []))
          (doubleWfd ord fuel cores true minChunk) rounds tasks = some (un, asg)) →
      Right minChunk tasks (fun _ => []) un asg := by
  have w := doubleWfd_sound hot hoc cores true minChunk
  have p1 := preassign_sound (k := minChunk)
    (pre := fun fuel => assignWfdWfd ord fuel cores minChunk preAssignSmall)
    (fun ts hts => stage_sound hot hoc cores minChunk preAssignSmall ts hts 0) w ht
  have p2 := preassign_sound (k := minChunk)
    (pre := fun fuel ts => firstFit ord fuel true minChunk none ts (fun _ => []))
    (fun ts hts => firstFit_sound hot true minChunk none ts _ hts good_empty) w ht
  refine ⟨p1.1, p2.1, ?_⟩
  rintro fuel rounds un asg (h | h)
  · exact (p1.2 fuel rounds un asg h).right ht.1 good_empty
  · exact (p2.2 fuel rounds un asg h).right ht.1 good_empty

/-! ### Examples and violations -/

/-- Iteration in list order. -/
def listOrder : Order := ⟨id, id⟩

/-- Three tasks of utilization 2/3 on two processors: one of them is split. -/
def threeTasks : List ATask := [⟨0, 4, 6, 6, [0, 1]⟩, ⟨1, 4, 6, 6, [0, 1]⟩, ⟨2, 4, 6, 6, [1, 0]⟩]

/-- Non-vacuity of the theorems of C43. -/
example : GoodTasks threeTasks ∧ GoodPre (fun _ => []) ∧
    (∀ l, (listOrder.tasks l).Perm l) ∧ (∀ l, (listOrder.cores l).Perm l) :=
  ⟨by unfold GoodTasks Proper threeTasks; decide, good_iff.1 good_empty, fun _ => List.Perm.refl _,
    fun _ => List.Perm.refl _⟩
example : (worstFit listOrder 100 ⟨true, 1, false⟩ threeTasks (fun _ => [])).map
    (fun r => (r.1, r.2 0, r.2 1)) =
    some ([], [⟨0, 4, 6, 6, [0, 1]⟩, ⟨2, 2, 6, 4, [1, 0]⟩], [⟨1, 4, 6, 6, [0, 1]⟩, ⟨2, 2, 6, 2, []⟩]) := by
  decide +kernel
example : (assignFfdFfd listOrder 100 1 true threeTasks).map (fun r => (r.1, r.2 0, r.2 1)) =
    some ([], [⟨1, 4, 6, 6, [0, 1]⟩, ⟨2, 2, 6, 4, [1, 0]⟩], [⟨0, 4, 6, 6, [0, 1]⟩, ⟨2, 2, 6, 2, []⟩]) := by
  decide +kernel

/-- **C43** is violated by first fit if identifiers are not distinct (they are all equal
by default): a task is put on a processor it must not use. -/
theorem C43_violated : ∃ (tasks : List ATask) (un : List ATask) (asg : Assign) (t : ATask),
    (∀ t ∈ tasks, Proper t) ∧ firstFit listOrder 10 false 0 none tasks (fun _ => []) = some (un, asg) ∧
    t ∈ asg 1 ∧ 1 ∉ t.affinity ∧ ¬ Accounted 0 tasks (fun _ => []) un asg := by
  obtain ⟨tasks, htasks⟩ : ∃ l : List ATask, l = [⟨0, 1, 4, 4, [0]⟩, ⟨0, 1, 4, 4, [1]⟩] := ⟨_, rfl⟩
  have hrun : (firstFit listOrder 10 false 0 none tasks (fun _ => [])).map (fun r => (r.1, r.2 0, r.2 1)) =
      some ([], [], [⟨0, 1, 4, 4, [0]⟩, ⟨0, 1, 4, 4, [1]⟩]) := by subst htasks; decide +kernel
  rw [Option.map_eq_some_iff] at hrun
  obtain ⟨⟨un, asg⟩, hr, he⟩ := hrun
  simp only [Prod.mk.injEq] at he
  obtain ⟨rfl, h0, h1⟩ := he
  refine ⟨tasks, [], asg, ⟨0, 1, 4, 4, [0]⟩, by subst htasks; unfold Proper; decide, hr,
    by rw [h1]; decide, by decide, ?_⟩
  clear hr h1
  subst htasks
  rintro ⟨ps, h1, h2, h3⟩
  -- the first task must be on processor 0
  cases h1 with
  | @cons t l ts ls hl hls =>
    obtain ⟨init, last, e, a, b, _⟩ := hl
    have hlast : last ∈ (l :: ls).flatten := by rw [e]; simp
    rcases b with ⟨c, hc, hl2⟩ | ⟨hl2, _⟩
    · have hc0 : c = 0 := by simpa using hc
      subst hc0
      have hm : last.2 ∈ partsOn (l :: ls).flatten (some 0) := by
        unfold partsOn
        exact List.mem_map.2 ⟨last, List.mem_filter.2 ⟨hlast, by simpa using hl2⟩, rfl⟩
      have := (h3 0).mem_iff.2 (by simpa using hm)
      rw [h0] at this
      simp at this
    · have hm : last.2 ∈ partsOn (l :: ls).flatten none := by
        unfold partsOn
        exact List.mem_map.2 ⟨last, List.mem_filter.2 ⟨hlast, by simpa using hl2⟩, rfl⟩
      have := h2.mem_iff.2 hm
      simp at this

/-- **C78** is violated: semi-partitioning reports a task as assigned that cannot meet
its deadline on any number of processors, since its cost exceeds its deadline. -/
theorem C78_violated : ∃ (t : ATask) (asg asg' : Assign), t.deadline < t.cost ∧
    worstFit listOrder 50 { withSplits := true } [t] (fun _ => []) = some ([], asg) ∧
    firstFit listOrder 50 true 0 none [t] (fun _ => []) = some ([], asg') := by
  have h1 : (worstFit listOrder 50 { withSplits := true } [⟨0, 5, 10, 3, [0, 1]⟩] (fun _ => [])).map
      Prod.fst = some [] := by decide +kernel
  have h2 : (firstFit listOrder 50 true 0 none [⟨0, 5, 10, 3, [0, 1]⟩] (fun _ => [])).map
      Prod.fst = some [] := by decide +kernel
  rw [Option.map_eq_some_iff] at h1 h2
  obtain ⟨⟨u1, a1⟩, e1, rfl⟩ := h1
  obtain ⟨⟨u2, a2⟩, e2, h⟩ := h2
  simp only at h
  subst h
  exact ⟨⟨0, 5, 10, 3, [0, 1]⟩, a1, a2, by decide, e1, e2⟩

theorem density_sum_ge {ts : List ATask} (h : ∀ t ∈ ts, 0 < t.period ∧ 0 < t.deadline) :
    ∀ {l : List ℚ}, ts.mapM ATask.density = some l → 0 ≤ l.sum ∧
      ∀ t ∈ ts, (t.cost : ℚ) / (min (t.period : ℤ) t.deadline : ℤ) ≤ l.sum := by
  induction ts with
  | nil => intro l hl; simp at hl; subst hl; simp
  | cons t ts ih =>
    intro l hl
    simp only [List.mapM_cons, Option.bind_eq_bind, Option.bind_eq_some_iff, Option.pure_def,
      Option.some.injEq] at hl
    obtain ⟨d, hd, l', hl', rfl⟩ := hl
    obtain ⟨i1, i2⟩ := ih (fun u hu => h u (by simp [hu])) hl'
    have hpos := h t (by simp)
    have hm : 0 < min (t.period : ℤ) t.deadline := by omega
    unfold ATask.density at hd
    simp only at hd
    rw [if_neg (by omega), Option.some.injEq] at hd
    have hd0 : 0 ≤ d := by
      rw [← hd]
      have : (0 : ℚ) < ((min (t.period : ℤ) t.deadline : ℤ) : ℚ) := by exact_mod_cast hm
      positivity
    rw [List.sum_cons]
    refine ⟨by linarith, fun u hu => ?_⟩
    rcases List.mem_cons.1 hu with rfl | hu
    · rw [hd]; linarith
    · have := i2 u hu; linarith

/-- A task that passes the test is feasible. -/
theorem fits_feasible {ts : List ATask} (h : ∀ t ∈ ts, 0 < t.period ∧ 0 < t.deadline) {fuel : ℕ}
    (hf : qpaItFits fuel ts = some true) {t : ATask} (ht : t ∈ ts) :
    (t.cost : ℤ) ≤ t.deadline ∧ t.cost ≤ t.period := by
  unfold qpaItFits at hf
  simp only [Option.bind_eq_bind, Option.bind_eq_some_iff] at hf
  obtain ⟨d, hd, hf⟩ := hf
  obtain ⟨hT, hD⟩ := h t ht
  split at hf
  · rename_i hle
    unfold density at hd
    rw [Option.map_eq_some_iff] at hd
    obtain ⟨l, hl, rfl⟩ := hd
    have := ((density_sum_ge h hl).2 t ht).trans hle
    have hm : 0 < min (t.period : ℤ) t.deadline := by omega
    have hmq : (0 : ℚ) < ((min (t.period : ℤ) t.deadline : ℤ) : ℚ) := by exact_mod_cast hm
    rw [div_le_one hmq] at this
    have h2 : (t.cost : ℤ) ≤ min (t.period : ℤ) t.deadline := by exact_mod_cast this
    omega
  · rw [Option.bind_eq_some_iff] at hf
    obtain ⟨ns, hns, hq⟩ := hf
    obtain ⟨h1, _⟩ := (C08_qpa_exact ns fuel true hq).1 rfl
    obtain ⟨n, hn, he⟩ := forall₂_mem_left (mapM_forall₂ hns) ht
    have := h1 n hn
    unfold toNative at he
    rw [if_neg (by omega), Option.some.injEq] at he
    subst he
    unfold Task.init at this
    have h0 : t.deadline.toNat ≠ 0 := by omega
    simp only [h0] at this
    simp at this
    omega

theorem wfPass_feasible {fuel k : ℕ} {m : Bool} (order : List ATask) :
    ∀ (un : List ATask) (asg : Assign) (un' : List ATask) (asg' : Assign) (again : Bool),
      (∀ t ∈ order, 0 < t.period ∧ 0 < t.deadline) → (∀ c, ∀ t ∈ asg c, 0 < t.period ∧ 0 < t.deadline) →
      wfPass ord fuel ⟨false, k, m⟩ order un asg = some (un', asg', again) → again = false ∧
      ∀ c, ∀ t ∈ asg' c, t ∈ asg c ∨ ((t.cost : ℤ) ≤ t.deadline ∧ t.cost ≤ t.period) := by
  induction order with
  | nil =>
    intro un asg un' asg' again _ _ h
    simp only [wfPass, Option.some.injEq, Prod.mk.injEq] at h
    obtain ⟨rfl, rfl, rfl⟩ := h
    exact ⟨rfl, fun c t ht => Or.inl ht⟩
  | cons t rest ih =>
    intro un asg un' asg' again ho ha h
    have hrest : ∀ t ∈ rest, 0 < t.period ∧ 0 < t.deadline := fun t h => ho t (by simp [h])
    rw [wfPass_cons, Option.bind_eq_some_iff] at h
    obtain ⟨r, hr, h⟩ := h
    cases r with
    | none => exact ih un asg un' asg' again hrest ha h
    | some asg1 =>
      simp only at h
      unfold tryAssignWorstFit at hr
      simp only [Option.bind_eq_bind, Option.bind_eq_some_iff] at hr
      obtain ⟨cs, hcs, hr⟩ := hr
      cases hm : minCandidate (cs.filterMap id) with
      | none => rw [hm] at hr; simp at hr
      | some best =>
        rw [hm] at hr
        simp only [Option.pure_def, Option.some.injEq] at hr
        subst hr
        obtain ⟨b, hb, hb2⟩ := List.mem_filterMap.1 (minCandidate_mem hm)
        simp only [id] at hb2
        subst hb2
        obtain ⟨c, _, hcb⟩ := forall₂_mem_right (mapM_forall₂ hcs) hb
        unfold candidate at hcb
        simp only [Option.bind_eq_bind, Option.bind_eq_some_iff] at hcb
        obtain ⟨b, hfit, hcb⟩ := hcb
        cases b with
        | false => simp at hcb
        | true =>
          simp only [if_true, Option.bind_eq_some_iff, Option.pure_def, Option.some.injEq] at hcb
          obtain ⟨d, _, rfl⟩ := hcb
          have hall : ∀ u ∈ asg c ++ [t], 0 < u.period ∧ 0 < u.deadline := by
            intro u hu
            rcases List.mem_append.1 hu with h1 | h1
            · exact ha c u h1
            · rw [List.mem_singleton.1 h1]; exact ho t (by simp)
          have hfeas := fits_feasible hall hfit (t := t) (by simp)
          have hput : ∀ c', ∀ u ∈ put asg c t c', u ∈ asg c' ∨ u = t := by
            intro c' u hu
            unfold put at hu
            by_cases hc : c' = c
            · subst hc
              rw [Function.update_self] at hu
              rcases List.mem_append.1 hu with h1 | h1
              · exact Or.inl h1
              · exact Or.inr (List.mem_singleton.1 h1)
            · rw [Function.update_of_ne hc] at hu
              exact Or.inl hu
          obtain ⟨i1, i2⟩ := ih (un.erase t) (put asg c t) un' asg' again hrest (fun c' u hu => by
            rcases hput c' u hu with h1 | rfl
            · exact ha c' u h1
            · exact ho u (by simp)) h
          refine ⟨i1, fun c' u hu => ?_⟩
          rcases i2 c' u hu with h1 | h1
          · rcases hput c' u h1 with h2 | rfl
            · exact Or.inl h2
            · exact Or.inr hfeas
          · exact Or.inr h1

/-- **C78**, partial: partitioning without splits never assigns a task whose cost
exceeds its deadline or its period.  Missing: with splits the property does not hold. -/
theorem C78_worst_fit_partial (hot : ∀ l, (ord.tasks l).Perm l) (fuel minChunk : ℕ) (maxChunkSplit : Bool)
    (tasks un : List ATask) (asg : Assign) (hpos : ∀ t ∈ tasks, 0 < t.period ∧ 0 < t.deadline)
    (h : worstFit ord fuel ⟨false, minChunk, maxChunkSplit⟩ tasks (fun _ => []) = some (un, asg)) :
    ∀ c, ∀ t ∈ asg c, (t.cost : ℤ) ≤ t.deadline ∧ t.cost ≤ t.period := by
  unfold worstFit at h
  cases fuel with
  | zero => cases h
  | succ fuel =>
    rw [wfLoop_succ, Option.bind_eq_some_iff] at h
    obtain ⟨order, hord, h⟩ := h
    rw [Option.bind_eq_some_iff] at h
    obtain ⟨⟨un1, asg1, again⟩, hpass, h⟩ := h
    have hperm := (sorted_spec _ hord).trans (hot tasks)
    obtain ⟨p1, p2⟩ := wfPass_feasible order tasks _ un1 asg1 again
      (fun t ht => hpos t (hperm.mem_iff.1 ht)) (by simp) hpass
    subst p1
    simp only [Bool.false_and, Bool.false_eq_true, if_false, Option.some.injEq, Prod.mk.injEq] at h
    obtain ⟨rfl, rfl⟩ := h
    intro c t ht
    exact (p2 c t ht).resolve_left (by simp)

/-- Non-vacuity: an infeasible task stays unassigned. -/
example : (worstFit listOrder 50 ⟨false, 0, false⟩ [⟨0, 5, 10, 3, [0]⟩, ⟨1, 2, 3, 3, [0]⟩] (fun _ => [])).map
    (fun r => (r.1, r.2 0)) = some ([⟨0, 5, 10, 3, [0]⟩], [⟨1, 2, 3, 3, [0]⟩]) := by decide +kernel

end Verif.Apa
