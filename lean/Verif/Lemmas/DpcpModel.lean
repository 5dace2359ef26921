/-
What the analysis of the DPCP computes.
-/
import Verif.Model.Dpcp
import Verif.Lemmas.PartLocks

namespace Verif.SR.Dpcp
open Verif.SR.Msrp (ceilingOf)
open Verif.SR.Rw (Contention)

/-! ### The mapping of resources to processors -/

theorem at_assign (l : Locality) (r c r' : ℕ) : (assign l r c).at r' = if r' = r then some c else l.at r' := by
  unfold Locality.at
  induction l generalizing r r' with
  | nil =>
    induction r generalizing r' with
    | zero => cases r' <;> simp [assign]
    | succ r ih =>
      cases r' with
      | zero => simp [assign]
      | succ r' =>
        rw [assign, List.getD_cons_succ, ih]
        simp
  | cons x l ih =>
    cases r with
    | zero => cases r' <;> simp [assign]
    | succ r =>
      cases r' with
      | zero => simp [assign]
      | succ r' =>
        rw [assign, List.getD_cons_succ, ih]
        simp

theorem topology_at {mapping : List (ℕ × ℕ)} (hn : (mapping.map Prod.fst).Nodup) {r c : ℕ} (h : (r, c) ∈ mapping) :
    (topology mapping).at r = some c := by
  unfold topology
  have keep : ∀ (m : List (ℕ × ℕ)) (l : Locality), r ∉ m.map Prod.fst →
      (m.foldl (fun l e => assign l e.1 e.2) l).at r = l.at r := by
    intro m
    induction m with
    | nil => intro l _; rfl
    | cons e m ih =>
      intro l hr
      rw [List.map_cons, List.mem_cons, not_or] at hr
      rw [List.foldl_cons, ih _ hr.2, at_assign, if_neg hr.1]
  generalize ([] : Locality) = l
  induction mapping generalizing l with
  | nil => simp at h
  | cons e m ih =>
    rw [List.map_cons, List.nodup_cons] at hn
    rw [List.foldl_cons]
    rcases List.mem_cons.1 h with h1 | h1
    · rw [keep m _ (by rw [← h1] at hn; exact hn.1), at_assign, ← h1]
      simp
    · exact ih hn.2 h1 _

/-! ### The contention sets -/

theorem getD_pad {α : Type} (cs : List (List α)) (i c : ℕ) : (pad cs i).getD c [] = cs.getD c [] := by
  induction cs generalizing i c with
  | nil =>
    induction i generalizing c with
    | zero => cases c <;> simp [pad]
    | succ i ih =>
      cases c with
      | zero => simp [pad]
      | succ c => rw [pad, List.getD_cons_succ, ih]; simp
  | cons x cs ih =>
    cases i with
    | zero => rfl
    | succ i =>
      cases c with
      | zero => simp [pad]
      | succ c => rw [pad, List.getD_cons_succ, ih, List.getD_cons_succ]

theorem getD_split (info : Info) (l : Locality) (c : ℕ) : (splitByLocality info l).getD c [] =
    ((indexed info).flatMap pointers).filter (fun r => decide (l.at r.req.resId = some c)) := by
  have inner : ∀ (rs : List RB) (acc : List (List RB)), (rs.foldl (fun cs req =>
      match l.at req.req.resId with
      | none => cs
      | some cpu => addAt cs cpu req) acc).getD c [] =
      acc.getD c [] ++ rs.filter (fun r => decide (l.at r.req.resId = some c)) := by
    intro rs
    induction rs with
    | nil => intro acc; simp
    | cons r rs ih =>
      intro acc
      rw [List.foldl_cons, ih]
      cases hl : l.at r.req.resId with
      | none => simp [hl]
      | some cpu =>
        simp only
        rw [getD_addAt]
        by_cases h : c = cpu
        · subst h
          simp [hl]
        · have : ¬ cpu = c := fun h' => h h'.symm
          simp [hl, h, this]
  unfold splitByLocality indexed
  rw [List.flatMap_map]
  have : ∀ (ts : List (TaskInfo × ℕ)) (acc : List (List RB)), (ts.foldl (fun cs t =>
      (pointers (t.2, t.1)).foldl (fun cs req =>
        match l.at req.req.resId with
        | none => cs
        | some cpu => addAt cs cpu req) (pad cs t.1.cluster)) acc).getD c [] =
      acc.getD c [] ++ (ts.flatMap (fun t => pointers (t.2, t.1))).filter (fun r => decide (l.at r.req.resId = some c)) := by
    intro ts
    induction ts with
    | nil => intro acc; simp
    | cons t ts ih =>
      intro acc
      rw [List.foldl_cons, ih, inner, getD_pad, List.flatMap_cons, List.filter_append, List.append_assoc]
  refine (this _ _).trans ?_
  simp

theorem contention_cpu (info : Info) (l : Locality) (c : ℕ) : Contention info ((perCpu info l).getD c [])
    (fun r => l.at r.req.resId = some c) := by
  unfold perCpu
  rw [getD_map_sort, getD_split]
  have hperm := C39_sorted (((indexed info).flatMap pointers).filter (fun r => decide (l.at r.req.resId = some c)))
  refine ⟨?_, hperm.1, ?_⟩
  · rw [hperm.2.nodup_iff]
    apply List.Nodup.filter
    rw [List.nodup_flatMap]
    constructor
    · intro t _
      unfold pointers
      refine List.Nodup.map_on ?_ (List.Nodup.of_map Prod.snd (by rw [List.zipIdx_map_snd]; exact List.nodup_range'))
      rintro ⟨a, n⟩ _ ⟨b, k⟩ _ hab
      simp only [RB.mk.injEq, true_and] at hab
      exact Prod.ext hab.2 hab.1
    · have := nodup_indexed info
      rw [List.Nodup, List.pairwise_map] at this
      refine this.imp ?_
      intro a b hab
      change List.Disjoint _ _
      intro r h1 h2
      exact hab ((mem_pointers.1 h1).1.symm.trans (mem_pointers.1 h2).1)
  · intro r
    rw [hperm.2.mem_iff, List.mem_filter, List.mem_flatMap]
    simp only [decide_eq_true_eq]
    constructor
    · rintro ⟨⟨t, ht, hr⟩, hc⟩
      obtain ⟨h1, h2, h3⟩ := mem_pointers.1 hr
      have := mem_indexed.1 ht
      rw [h1, h2]
      exact ⟨this, h3, hc⟩
    · rintro ⟨h1, h2, h3⟩
      exact ⟨⟨(r.task, r.info), mem_indexed.2 h1, mem_pointers.2 ⟨rfl, rfl, h2⟩⟩, h3⟩

/-! ### The bounds -/

theorem count_eq (tsk : TaskInfo) (l : Locality) (c : ℕ) :
    countRequests tsk l c = (tsk.requests.map (fun r => if l.at r.resId = some c then r.num else 0)).sum := by
  unfold countRequests
  have : ∀ (rs : List Request) (a : ℕ), rs.foldl (fun count req => if l.at req.resId = some c then count + req.num
      else count) a = a + (rs.map (fun r => if l.at r.resId = some c then r.num else 0)).sum := by
    intro rs
    induction rs with
    | nil => intro a; simp
    | cons r rs ih =>
      intro a
      rw [List.foldl_cons, ih, List.map_cons, List.sum_cons]
      split_ifs <;> omega
  rw [this, Nat.zero_add]

/-- The requests of other tasks. -/
def others (interval i : ℕ) (cont : List RB) : ℕ :=
  (cont.map (fun r => if r.task ≠ i then r.maxNumRequests interval * r.req.length else 0)).sum

/-- The requests of higher-priority tasks. -/
def highers (interval i prio : ℕ) (cont : List RB) : ℕ :=
  (cont.map (fun r => if r.task ≠ i ∧ r.info.priority < prio then r.maxNumRequests interval * r.req.length else 0)).sum

/-- The requests of lower-priority tasks that count. -/
def lower (info : Info) (i prio : ℕ) (r : RB) : Bool :=
  decide (r.task ≠ i) && (decide (¬ r.info.priority < prio) && decide (ceilingOf info r.req.resId ≤ prio))

theorem boundLoop_eq (info : Info) (i : ℕ) (tsk : TaskInfo) (per : ℕ) (cont : List RB) : ∀ {m : ℕ}, m ≤ per →
    (boundLoop info i tsk m cont).total = highers tsk.response i tsk.priority cont +
      (SR.boundLoop tsk.response per (lower info i tsk.priority) m cont).total := by
  unfold highers
  induction cont with
  | nil => intro m _; rfl
  | cons r cont ih =>
    intro m hm
    rw [boundLoop, boundLoop_step, List.map_cons, List.sum_cons]
    simp only [Interference.add]
    by_cases h1 : r.task ≠ i
    · rw [if_pos h1]
      by_cases h2 : r.info.priority < tsk.priority
      · have hl : lower info i tsk.priority r = false := by simp [lower, h2]
        rw [if_pos h2, if_pos ⟨h1, h2⟩, hl]
        simp only [Bool.false_eq_true, if_false, Nat.sub_zero, Nat.zero_mul]
        rw [ih hm]
        omega
      · rw [if_neg h2, if_neg (show ¬ (r.task ≠ i ∧ r.info.priority < tsk.priority) from fun h => h2 h.2)]
        by_cases h3 : ceilingOf info r.req.resId ≤ tsk.priority
        · have hl : lower info i tsk.priority r = true := by
            unfold lower
            simp only [h1, h2, h3, not_false_eq_true, decide_true, Bool.and_self]
            simp [h1]
          rw [hl]
          simp only [if_true]
          have e : min (min (r.maxNumRequests tsk.response) per) m = min (r.maxNumRequests tsk.response) m := by
            omega
          rw [e]
          by_cases h4 : m = 0
          · rw [if_neg (fun h => h.1 h4), ih hm, h4]
            simp
          · rw [if_pos ⟨h4, h3⟩]
            simp only
            rw [ih (by omega)]
            omega
        · have hl : lower info i tsk.priority r = false := by simp [lower, h3]
          rw [if_neg (fun h => h3 h.2), hl, ih hm]
          simp
    · have hl : lower info i tsk.priority r = false := by
        have : r.task = i := not_not.1 h1
        simp [lower, this]
      rw [if_neg h1, if_neg (fun h => h1 h.1), hl, ih hm]
      simp

theorem localBound_eq (i : ℕ) (tsk : TaskInfo) (cont : List RB) :
    (localBound i tsk cont).total = others tsk.response i cont := by
  unfold localBound others
  have : ∀ (l : List RB) (b : Interference), (l.foldl (fun b req => if req.task ≠ i then
      let num := req.maxNumRequests tsk.response
      b.add ⟨num, num * req.req.length⟩ else b) b).total = b.total + (l.map (fun r => if r.task ≠ i then
        r.maxNumRequests tsk.response * r.req.length else 0)).sum := by
    intro l
    induction l with
    | nil => intro b; simp
    | cons r l ih =>
      intro b
      rw [List.foldl_cons, ih, List.map_cons, List.sum_cons]
      by_cases h : r.task ≠ i
      · rw [if_pos h, if_pos h]
        simp only [Interference.add]
        omega
      · rw [if_neg h, if_neg h]
        omega
  rw [this]
  simp

/-- The remote blocking is a sum over the other processors. -/
theorem remoteLoop_eq (info : Info) (l : Locality) (i : ℕ) (tsk : TaskInfo) (css : List (List RB)) : ∀ cpu,
    (remoteLoop info l i tsk cpu css).total = ∑ c ∈ Finset.range css.length,
      if cpu + c ≠ tsk.cluster ∧ 0 < countRequests tsk l (cpu + c) then
        (boundLoop info i tsk (countRequests tsk l (cpu + c)) (css.getD c [])).total else 0 := by
  induction css with
  | nil => intro cpu; rfl
  | cons cs css ih =>
    intro cpu
    rw [remoteLoop, List.length_cons, Finset.sum_range_succ']
    have e : ∀ c, cpu + 1 + c = cpu + (c + 1) := fun c => by omega
    have ih' := ih (cpu + 1)
    simp only [e] at ih'
    simp only [List.getD_cons_succ, List.getD_cons_zero, Nat.add_zero]
    rw [← ih']
    by_cases h1 : cpu ≠ tsk.cluster
    · rw [if_pos h1]
      by_cases h2 : countRequests tsk l cpu > 0
      · rw [if_pos h2, if_pos ⟨h1, h2⟩]
        simp only [Interference.add]
        omega
      · rw [if_neg h2, if_neg (fun h => h2 h.2)]
        omega
    · rw [if_neg h1, if_neg (fun h => h1 h.1)]
      omega

/-- A loop without limits. -/
theorem loop_le (interval per : ℕ) (ok : RB → Bool) (cont : List RB) : ∀ m,
    (SR.boundLoop interval per ok m cont).total ≤
      (cont.map (fun r => if ok r = true then r.maxNumRequests interval * r.req.length else 0)).sum := by
  induction cont with
  | nil => intro m; simp [SR.boundLoop]
  | cons r cont ih =>
    intro m
    rw [boundLoop_step, List.map_cons, List.sum_cons]
    simp only [Interference.add]
    refine Nat.add_le_add ?_ (ih _)
    split_ifs
    · apply Nat.mul_le_mul_right
      omega
    · simp

end Verif.SR.Dpcp
