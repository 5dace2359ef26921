/-
Runs of the heuristics of `schedcat/mapping/apa.py`: everything they do is a sequence
of placements and splits.
-/
import Verif.Lemmas.Apa
import Mathlib.Data.List.Perm.Subperm

namespace Verif.Apa
open Verif.Native Verif.Spec

/-- The demand never exceeds the interval. -/
def Ok (ts : List ATask) : Prop := ∀ x, dem ts x ≤ x

/-- All processors are schedulable and have feasible tasks only. -/
def Good (asg : Assign) : Prop := ∀ c, (∀ t ∈ asg c, Proper t) ∧ Ok (asg c)

/-- Reachable by placing and (if `s`) splitting tasks. -/
inductive Reach (k : ℕ) (s : Bool) (pre : Assign) (tasks : List ATask) :
    List ATask → Assign → Prop
  | start {un} : un.Perm tasks → Reach k s pre tasks un pre
  | place {un un' asg u c} : Reach k s pre tasks un asg → un.Perm (u :: un') → c ∈ u.affinity →
      Ok (asg c ++ [u]) → Reach k s pre tasks un' (put asg c u)
  | split {un un0 un' asg u c w} : Reach k s pre tasks un asg → s = true → un.Perm (u :: un0) →
      un'.Perm ((splitTask u w).2 :: un0) → c ∈ u.affinity → 0 < w → w < u.cost → k ≤ w →
      k ≤ u.cost - w → Ok (asg c ++ [(splitTask u w).1]) →
      Reach k s pre tasks un' (put asg c (splitTask u w).1)

namespace Reach
variable {k : ℕ} {s : Bool} {pre asg asg2 : Assign} {tasks un un2 : List ATask}

theorem trans (h1 : Reach k s pre tasks un asg) (h2 : Reach k s asg un un2 asg2) :
    Reach k s pre tasks un2 asg2 := by
  induction h2 with
  | start hp =>
    cases h1 with
    | start hp1 => exact .start (hp.trans hp1)
    | place a b c d => exact .place a (b.trans (hp.symm.cons _)) c d
    | split a b c d e f g i j l => exact .split a b c (hp.trans d) e f g i j l
  | place _ b c d ih => exact .place ih b c d
  | split _ b c d e f g i j l ih => exact .split ih b c d e f g i j l

theorem perm (h1 : Reach k s pre tasks un asg) {un' : List ATask} (hp : un'.Perm un) :
    Reach k s pre tasks un' asg := h1.trans (.start hp)

theorem frame (h1 : Reach k s pre tasks un asg) (B : List ATask) :
    Reach k s pre (tasks ++ B) (un ++ B) asg := by
  induction h1 with
  | start hp => exact .start (hp.append_right B)
  | place _ b c d ih => exact .place ih (b.append_right B) c d
  | split _ b c d e f g i j l ih =>
    exact .split ih b (c.append_right B) (d.append_right B) e f g i j l

theorem of_perm (h1 : Reach k s pre tasks un asg) {tasks' : List ATask} (hp : tasks.Perm tasks') :
    Reach k s pre tasks' un asg := Reach.trans (.start hp) h1

theorem weaken (h1 : Reach k false pre tasks un asg) (k' : ℕ) (s' : Bool) :
    Reach k' s' pre tasks un asg := by
  induction h1 with
  | start hp => exact .start hp
  | place _ b c d ih => exact .place ih b c d
  | split _ b => cases b

end Reach

theorem proper_split {u : ATask} (h : Proper u) {w : ℕ} (h0 : 0 < w) (hw : w < u.cost) :
    Proper (splitTask u w).1 ∧ Proper (splitTask u w).2 := by
  unfold Proper at *
  simp only [splitTask]
  omega

theorem good_put {asg : Assign} (h : Good asg) {c : ℕ} {u : ATask} (hu : Proper u)
    (hok : Ok (asg c ++ [u])) : Good (put asg c u) := by
  intro c'
  unfold put
  by_cases hc : c' = c
  · subst hc
    rw [Function.update_self]
    refine ⟨fun t ht => ?_, hok⟩
    rcases List.mem_append.1 ht with h1 | h1
    · exact (h c').1 t h1
    · rw [List.mem_singleton.1 h1]; exact hu
  · rw [Function.update_of_ne hc]
    exact h c'

theorem Reach.good {k : ℕ} {s : Bool} {pre asg : Assign} {tasks un : List ATask}
    (h : Reach k s pre tasks un asg) (hp : ∀ t ∈ tasks, Proper t) (hg : Good pre) :
    (∀ t ∈ un, Proper t) ∧ Good asg ∧ (un.map ATask.id).Subperm (tasks.map ATask.id) := by
  induction h with
  | start h => exact ⟨fun t ht => hp t (h.mem_iff.1 ht), hg, (h.map _).subperm⟩
  | place _ b c d ih =>
    obtain ⟨i1, i2, i3⟩ := ih
    refine ⟨fun t ht => i1 t (b.mem_iff.2 (by simp [ht])), good_put i2 (i1 _ (b.mem_iff.2 (by simp))) d,
      (List.Subperm.trans ?_ (b.symm.map ATask.id).subperm).trans i3⟩
    exact (List.sublist_cons_self _ _).subperm
  | @split un un0 un' asg u c w _ b p d e f g i j l ih =>
    obtain ⟨i1, i2, i3⟩ := ih
    have hu := proper_split (i1 u (p.mem_iff.2 (by simp))) f g
    refine ⟨fun t ht => ?_, good_put i2 hu.1 l, ?_⟩
    · rcases List.mem_cons.1 (d.mem_iff.1 ht) with h1 | h1
      · rw [h1]; exact hu.2
      · exact i1 t (p.mem_iff.2 (by simp [h1]))
    · refine List.Subperm.trans ?_ i3
      have h1 := d.map ATask.id
      have h2 := p.map ATask.id
      exact (h1.trans h2.symm).subperm

theorem Reach.mono {k : ℕ} {s : Bool} {pre asg : Assign} {tasks un : List ATask}
    (h : Reach k s pre tasks un asg) (c x : ℕ) : dem (pre c) x ≤ dem (asg c) x := by
  have key : ∀ (a : Assign) c' u, dem (a c) x ≤ dem (put a c' u c) x := by
    intro a c' u
    unfold put
    by_cases hc : c = c'
    · subst hc; rw [Function.update_self, dem_append]; omega
    · rw [Function.update_of_ne hc]
  induction h with
  | start => exact le_rfl
  | place _ _ _ _ ih => exact ih.trans (key _ _ _)
  | split _ _ _ _ _ _ _ _ _ _ ih => exact ih.trans (key _ _ _)

/-! ### Accounting -/

theorem partsOn_append (a b : List Part) (c : Option ℕ) :
    partsOn (a ++ b) c = partsOn a c ++ partsOn b c := by
  simp [partsOn]

theorem partsOn_perm {a b : List Part} (h : a.Perm b) (c : Option ℕ) :
    (partsOn a c).Perm (partsOn b c) := (h.filter _).map _

theorem isSplitOf_trans {k : ℕ} {t u : ATask} {init l : List Part}
    (h : IsSplitOf k t (init ++ [(none, u)])) (h2 : IsSplitOf k u l) : IsSplitOf k t (init ++ l) := by
  obtain ⟨i1, l1, e1, a1, b1, c1, d1, f1, g1⟩ := h
  obtain ⟨i2, l2, e2, a2, b2, c2, d2, f2, g2⟩ := h2
  obtain ⟨rfl, h3⟩ := List.append_inj' e1 rfl
  rw [List.cons.injEq] at h3
  obtain ⟨rfl, -⟩ := h3
  have haff : u.affinity = t.affinity := by
    rcases b1 with ⟨c, _, hc⟩ | ⟨_, h⟩
    · cases hc
    · exact h
  rw [haff] at a2 b2
  have hu := c1 (none, u) (by simp)
  refine ⟨init ++ i2, l2, by rw [e2, List.append_assoc], ?_, b2, ?_, ?_, ?_, ?_⟩
  · intro p hp
    rcases List.mem_append.1 hp with h | h
    · exact a1 p h
    · exact a2 p h
  · intro p hp
    rcases List.mem_append.1 hp with h | h
    · exact c1 p (by simp [h])
    · have := c2 p h
      exact ⟨this.1.trans hu.1, this.2.1.trans hu.2.1, this.2.2⟩
  · rw [List.map_append, List.sum_append] at d1 ⊢
    simp only [List.map_cons, List.map_nil, List.sum_cons, List.sum_nil, add_zero] at d1
    rw [d2]; exact d1
  · rw [List.map_append, List.sum_append] at f1 ⊢
    simp only [List.map_cons, List.map_nil, List.sum_cons, List.sum_nil, add_zero] at f1
    rw [f2]; exact f1
  · intro hne p hp
    by_cases hi2 : i2 = []
    · subst hi2
      simp only [List.append_nil, ne_eq] at hne
      rcases List.mem_append.1 hp with h | h
      · exact g1 hne p (by simp [h])
      · rw [e2] at h d2
        simp only [List.nil_append, List.mem_singleton] at h
        simp only [List.nil_append, List.map_cons, List.map_nil, List.sum_cons, List.sum_nil,
          add_zero] at d2
        have := g1 hne (none, u) (by simp)
        rw [h, d2]; exact this
    · rcases List.mem_append.1 hp with h | h
      · have : init ≠ [] := fun h0 => by rw [h0] at h; simp at h
        exact g1 this p (by simp [h])
      · exact g2 hi2 p h

theorem replace_part {k : ℕ} {tasks : List ATask} {ps : List (List Part)} {u : ATask} {l : List Part}
    (h : List.Forall₂ (IsSplitOf k) tasks ps) (hu : (none, u) ∈ ps.flatten) (hl : IsSplitOf k u l) :
    ∃ ps', List.Forall₂ (IsSplitOf k) tasks ps' ∧
      ((none, u) :: ps'.flatten).Perm (ps.flatten ++ l) := by
  induction h with
  | nil => simp at hu
  | @cons t q ts qs hq hqs ih =>
    rw [List.flatten_cons, List.mem_append] at hu
    by_cases hm : ((none, u) : Part) ∈ q
    · obtain ⟨init, last, e, a, rest⟩ := id hq
      have hlast : last = (none, u) := by
        rw [e] at hm
        rcases List.mem_append.1 hm with h | h
        · obtain ⟨⟨c, _, hc⟩, _⟩ := a _ h
          cases hc
        · exact (List.mem_singleton.1 h).symm
      subst hlast
      subst e
      refine ⟨(init ++ l) :: qs, .cons (isSplitOf_trans hq hl) hqs, ?_⟩
      simp only [List.flatten_cons]
      rw [List.perm_iff_count]
      intro x
      simp only [List.count_append, List.count_cons, List.count_nil]
      omega
    · obtain ⟨qs', h1, h2⟩ := ih (hu.resolve_left hm)
      refine ⟨q :: qs', .cons hq h1, ?_⟩
      simp only [List.flatten_cons]
      rw [List.perm_iff_count] at h2 ⊢
      intro x
      have := h2 x
      simp only [List.count_append, List.count_cons] at this ⊢
      omega

theorem accounted_step {k : ℕ} {tasks : List ATask} {pre asg asg' : Assign} {un un' : List ATask}
    {u : ATask} {l : List Part} (h : Accounted k tasks pre un asg) (hu : u ∈ un)
    (hl : IsSplitOf k u l) (hun : (u :: un').Perm (un ++ partsOn l none))
    (hasg : ∀ c, asg' c = asg c ++ partsOn l (some c)) : Accounted k tasks pre un' asg' := by
  obtain ⟨ps, h1, h2, h3⟩ := h
  have hmem : (none, u) ∈ ps.flatten := by
    have := h2.mem_iff.1 hu
    simp only [partsOn, List.mem_map, List.mem_filter, decide_eq_true_eq] at this
    obtain ⟨⟨o, u'⟩, ⟨hm, ho⟩, hu'⟩ := this
    simp only at ho hu'
    subst ho; subst hu'
    exact hm
  obtain ⟨ps', g1, g2⟩ := replace_part h1 hmem hl
  refine ⟨ps', g1, ?_, fun c => ?_⟩
  · have := partsOn_perm g2 none
    rw [partsOn_append] at this
    have e : partsOn ((none, u) :: ps'.flatten) none = u :: partsOn ps'.flatten none := by
      simp [partsOn]
    rw [e] at this
    have h4 := hun.trans ((h2.append_right _).trans this.symm)
    exact h4.cons_inv
  · have := partsOn_perm g2 (some c)
    rw [partsOn_append] at this
    have e : partsOn ((none, u) :: ps'.flatten) (some c) = partsOn ps'.flatten (some c) := by
      simp [partsOn]
    rw [e] at this
    rw [hasg]
    refine ((h3 c).append_right _).trans ?_
    rw [List.append_assoc]
    exact (this.symm).append_left _

theorem put_eq (asg : Assign) (c c' : ℕ) (u : ATask) :
    put asg c u c' = asg c' ++ partsOn [(some c, u)] (some c') := by
  unfold put
  by_cases h : c' = c
  · subst h; rw [Function.update_self]; simp [partsOn]
  · rw [Function.update_of_ne h]
    have : ¬ c = c' := fun e => h e.symm
    simp [partsOn, this]

theorem Reach.accounted {k : ℕ} {s : Bool} {pre asg : Assign} {tasks un : List ATask}
    (h : Reach k s pre tasks un asg) (hp : ∀ t ∈ tasks, Proper t) (hg : Good pre) :
    Accounted k tasks pre un asg := by
  induction h with
  | start h =>
    refine ⟨tasks.map (fun t => [(none, t)]), ?_, ?_, fun c => ?_⟩
    · clear h
      induction tasks with
      | nil => exact .nil
      | cons t ts ih =>
        refine .cons ?_ (ih (fun t ht => hp t (by simp [ht])))
        refine ⟨[], (none, t), rfl, by simp, Or.inr ⟨rfl, rfl⟩, ?_, by simp, by simp, by simp⟩
        have := (hp t (by simp)).1
        simp [this]
    · refine h.trans (List.Perm.of_eq ?_)
      clear h hp
      induction tasks with
      | nil => rfl
      | cons t ts ih =>
        rw [List.map_cons, List.flatten_cons, partsOn_append, ← ih]
        simp [partsOn]
    · apply List.Perm.of_eq
      clear h hp
      induction tasks with
      | nil => simp [partsOn]
      | cons t ts ih =>
        rw [List.map_cons, List.flatten_cons, partsOn_append, ← List.append_assoc]
        have : partsOn [(none, t)] (some c) = [] := by simp [partsOn]
        rw [this, List.append_nil]
        exact ih
  | @place un un' asg u c hr b d e ih =>
    have hu : u ∈ un := b.mem_iff.2 (by simp)
    obtain ⟨i1, _⟩ := hr.good hp hg
    refine accounted_step (l := [(some c, u)]) ih hu ?_ ?_ (fun c' => put_eq _ _ _ _)
    · refine ⟨[], (some c, u), rfl, by simp, Or.inl ⟨c, d, rfl⟩, ?_, by simp, by simp, by simp⟩
      have := (i1 u hu).1
      simp [this]
    · have : partsOn [(some c, u)] none = [] := by simp [partsOn]
      rw [this, List.append_nil]
      exact b.symm
  | @split un un0 un' asg u c w hr b p d e f g i j l ih =>
    have hu : u ∈ un := p.mem_iff.2 (by simp)
    refine accounted_step (l := [(some c, (splitTask u w).1), (none, (splitTask u w).2)]) ih hu ?_ ?_
      (fun c' => ?_)
    · refine ⟨[(some c, (splitTask u w).1)], (none, (splitTask u w).2), rfl, ?_, Or.inr ⟨rfl, rfl⟩, ?_, ?_,
        ?_, ?_⟩
      · intro q hq
        rw [List.mem_singleton.1 hq]
        exact ⟨⟨c, e, rfl⟩, rfl⟩
      · intro q hq
        simp only [List.mem_cons, List.not_mem_nil, or_false] at hq
        rcases hq with rfl | rfl
        · exact ⟨rfl, rfl, f⟩
        · refine ⟨rfl, rfl, ?_⟩
          simp only [splitTask]; omega
      · simp [splitTask]; omega
      · simp [splitTask]
      · intro _ q hq
        simp only [List.mem_cons, List.not_mem_nil, or_false] at hq
        rcases hq with rfl | rfl
        · exact i
        · simpa [splitTask] using j
    · have : partsOn [(some c, (splitTask u w).1), (none, (splitTask u w).2)] none = [(splitTask u w).2] := by
        simp [partsOn]
      rw [this]
      rw [List.perm_iff_count] at p d ⊢
      intro x
      have h1 := p x
      have h2 := d x
      simp only [List.count_append, List.count_cons, List.count_nil] at h1 h2 ⊢
      omega
    · rw [put_eq]
      congr 1

end Verif.Apa
