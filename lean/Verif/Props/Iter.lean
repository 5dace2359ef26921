/-
C50: merged iteration is sorted and complete.
-/
import Verif.Model.Iter
import Verif.Model.Tasks
import Mathlib.Data.List.Destutter

namespace Verif

variable {α : Type}

/-- All elements still to come from a heap. -/
def heapElems (heap : List (α × List α)) : List α := (heap.map (fun p => p.1 :: p.2)).flatten

theorem heapElems_init (its : List (List α)) : heapElems (imergeInit its) = its.flatten := by
  induction its with
  | nil => rfl
  | cons it its ih =>
    cases it with
    | nil => simpa [imergeInit] using ih
    | cons x xs =>
      simp only [imergeInit, heapElems, List.map_cons, List.flatten_cons] at ih ⊢
      rw [ih]

theorem heapElems_push (rest : List α) (heap : List (α × List α)) :
    heapElems (imergePush rest heap) = rest ++ heapElems heap := by
  cases rest <;> simp [imergePush, heapElems]

theorem heapElems_perm {h h' : List (α × List α)} (p : h.Perm h') :
    (heapElems h).Perm (heapElems h') := (p.map _).flatten

theorem ImergeRun.perm {le : α → α → Prop} {heap : List (α × List α)} {out : List α}
    (h : ImergeRun le heap out) : out.Perm (heapElems heap) := by
  induction h with
  | done => simp [heapElems]
  | step pop _ _ ih =>
    refine List.Perm.trans ?_ (heapElems_perm pop).symm
    rw [heapElems_push] at ih
    simpa [heapElems] using ih

/-- The iterators of a heap are sorted. -/
def HeapSorted (le : α → α → Prop) (heap : List (α × List α)) : Prop :=
  ∀ p ∈ heap, (p.1 :: p.2).Pairwise le

theorem HeapSorted.push {le : α → α → Prop} {x : α} {rest : List α} {others : List (α × List α)}
    (h : HeapSorted le ((x, rest) :: others)) : HeapSorted le (imergePush rest others) := by
  intro p hp
  cases rest with
  | nil => exact h p (by simp [imergePush] at hp; simp [hp])
  | cons y ys =>
    simp only [imergePush, List.mem_cons] at hp
    rcases hp with rfl | hp
    · have := h (x, y :: ys) (by simp)
      exact (List.pairwise_cons.1 this).2
    · exact h p (by simp [hp])

theorem ImergeRun.sorted {le : α → α → Prop} (trans : ∀ a b c, le a b → le b c → le a c)
    {heap : List (α × List α)} {out : List α} (h : ImergeRun le heap out)
    (hs : HeapSorted le heap) : out.Pairwise le := by
  induction h with
  | done => exact List.Pairwise.nil
  | @step heap others x rest out pop least next ih =>
    have hs' : HeapSorted le ((x, rest) :: others) := fun p hp => hs p (pop.mem_iff.2 hp)
    refine List.pairwise_cons.2 ⟨fun y hy => ?_, ih hs'.push⟩
    have hy := (next.perm.mem_iff).1 hy
    rw [heapElems_push, List.mem_append] at hy
    rcases hy with hy | hy
    · exact (List.pairwise_cons.1 (hs' (x, rest) (by simp))).1 y hy
    · simp only [heapElems, List.mem_flatten, List.mem_map] at hy
      obtain ⟨_, ⟨p, hp, rfl⟩, hy⟩ := hy
      rcases List.mem_cons.1 hy with rfl | hy
      · exact least p hp
      · exact trans _ _ _ (least p hp)
          ((List.pairwise_cons.1 (hs' p (by simp [hp]))).1 y hy)

/-- **C50**, completeness and order: whatever `imerge` yields for iterators sorted by a
transitive order is sorted and a permutation of all their elements. -/
theorem C50_imerge (le : α → α → Prop) (trans : ∀ a b c, le a b → le b c → le a c)
    (its : List (List α)) (hsorted : ∀ it ∈ its, it.Pairwise le) (out : List α)
    (h : Imerge le its out) : out.Pairwise le ∧ out.Perm its.flatten := by
  constructor
  · refine ImergeRun.sorted trans h ?_
    intro p hp
    have : p.1 :: p.2 ∈ its := by
      clear h hsorted
      induction its with
      | nil => simp [imergeInit] at hp
      | cons it its ih =>
        cases it with
        | nil => exact List.mem_cons_of_mem _ (ih hp)
        | cons x xs =>
          simp only [imergeInit, List.mem_cons] at hp
          rcases hp with rfl | hp
          · exact List.mem_cons_self
          · exact List.mem_cons_of_mem _ (ih hp)
    exact hsorted _ this
  · have := ImergeRun.perm h
    rwa [heapElems_init] at this

/-- The order in which elements are lost or repeated does not depend on sortedness:
also for unsorted iterators `imerge` yields each element once. -/
theorem C50_imerge_complete (le : α → α → Prop) (its : List (List α)) (out : List α)
    (h : Imerge le its out) : out.Perm its.flatten := by
  have := ImergeRun.perm h
  rwa [heapElems_init] at this

theorem exists_least {le : α → α → Prop} (total : ∀ a b, le a b ∨ le b a)
    (trans : ∀ a b c, le a b → le b c → le a c) (p : α × List α) (heap : List (α × List α)) :
    ∃ q others, (p :: heap).Perm (q :: others) ∧ ∀ r ∈ others, le q.1 r.1 := by
  induction heap generalizing p with
  | nil => exact ⟨p, [], List.Perm.refl _, by simp⟩
  | cons a heap ih =>
    obtain ⟨q, others, hp, hl⟩ := ih a
    rcases total p.1 q.1 with h | h
    · refine ⟨p, q :: others, hp.cons p, fun r hr => ?_⟩
      rcases List.mem_cons.1 hr with rfl | hr
      · exact h
      · exact trans _ _ _ h (hl r hr)
    · refine ⟨q, p :: others, (hp.cons p).trans (List.Perm.swap _ _ _), fun r hr => ?_⟩
      rcases List.mem_cons.1 hr with rfl | hr
      · exact h
      · exact hl r hr

/-- **C50**, progress: for a total preorder, `imerge` never gets stuck before all
iterators have ended, so there is a complete run. -/
theorem C50_imerge_total (le : α → α → Prop) (total : ∀ a b, le a b ∨ le b a)
    (trans : ∀ a b c, le a b → le b c → le a c) (its : List (List α)) :
    ∃ out, Imerge le its out := by
  suffices h : ∀ n (heap : List (α × List α)), (heapElems heap).length = n →
      ∃ out, ImergeRun le heap out from h _ _ rfl
  intro n
  induction n with
  | zero =>
    intro heap hn
    cases heap with
    | nil => exact ⟨[], .done⟩
    | cons p heap => simp [heapElems] at hn
  | succ n ih =>
    intro heap hn
    cases heap with
    | nil => simp [heapElems] at hn
    | cons p heap =>
      obtain ⟨⟨x, rest⟩, others, hp, hl⟩ := exists_least total trans p heap
      obtain ⟨out, ho⟩ := ih (imergePush rest others) (by
        have := (heapElems_perm hp).length_eq
        rw [hn] at this
        rw [heapElems_push]
        simp [heapElems] at this ⊢
        omega)
      exact ⟨x :: out, .step hp hl ho⟩

theorem uniqFrom_eq [DecidableEq α] (last : α) (l : List α) :
    last :: uniqFrom last l = List.destutter' (· ≠ ·) last l := by
  induction l generalizing last with
  | nil => rfl
  | cons x l ih =>
    unfold uniqFrom
    by_cases h : x = last
    · subst h
      rw [if_neg (by simp), List.destutter'_cons_neg _ (by simp)]
      exact ih x
    · rw [if_pos h, List.destutter'_cons_pos _ (Ne.symm h), ih x]

/-- **C50**, `uniq`: it removes exactly the adjacent duplicates.  The result is
`List.destutter`, a sublist with the same elements and no equal neighbours. -/
theorem C50_uniq [DecidableEq α] (l : List α) :
    uniq l = l.destutter (· ≠ ·) ∧ (uniq l).Sublist l ∧ (uniq l).IsChain (· ≠ ·) ∧
      ∀ x, x ∈ uniq l ↔ x ∈ l := by
  have h0 : uniq l = l.destutter (· ≠ ·) := by
    cases l with
    | nil => rfl
    | cons x l => exact uniqFrom_eq x l
  refine ⟨h0, h0 ▸ List.destutter_sublist _ _, h0 ▸ List.isChain_destutter _ _, fun x => ?_⟩
  refine ⟨fun h => (h0 ▸ List.destutter_sublist (· ≠ ·) l : (uniq l).Sublist l).subset h, ?_⟩
  have key : ∀ (l : List α) (last : α), x ∈ l → x ∈ last :: uniqFrom last l := by
    intro l
    induction l with
    | nil => intro _ h; simp at h
    | cons y l ih =>
      intro last h
      unfold uniqFrom
      by_cases hy : y = last
      · subst hy
        rw [if_neg (by simp)]
        rcases List.mem_cons.1 h with rfl | h
        · exact List.mem_cons_self
        · exact ih _ h
      · rw [if_pos hy]
        rcases List.mem_cons.1 h with rfl | h
        · simp
        · exact List.mem_cons_of_mem _ (ih _ h)
  cases l with
  | nil => simp
  | cons y l =>
    intro h
    rcases List.mem_cons.1 h with rfl | h
    · exact List.mem_cons_self
    · exact key l y h

/-- **C50**, both together: for a linear order, `uniq(imerge(...))` is strictly
increasing and has exactly the elements of the iterators. -/
theorem C50_uniq_imerge [LinearOrder α] (its : List (List α))
    (hsorted : ∀ it ∈ its, it.Pairwise (· ≤ ·)) (out : List α) (h : Imerge (· ≤ ·) its out) :
    (uniq out).Pairwise (· < ·) ∧ ∀ x, x ∈ uniq out ↔ ∃ it ∈ its, x ∈ it := by
  obtain ⟨hs, hp⟩ := C50_imerge (· ≤ ·) (fun _ _ _ => le_trans) its hsorted out h
  obtain ⟨_, hsub, hch, hmem⟩ := C50_uniq out
  constructor
  · have h1 : (uniq out).Pairwise (· ≤ ·) := hs.sublist hsub
    rw [← List.isChain_iff_pairwise] at h1 ⊢
    generalize uniq out = l at h1 hch
    induction l with
    | nil => exact List.IsChain.nil
    | cons a l ih =>
      rw [List.isChain_cons] at h1 hch ⊢
      exact ⟨fun y hy => lt_of_le_of_ne (h1.1 y hy) (hch.1 y hy), ih h1.2 hch.2⟩
  · intro x
    rw [hmem, hp.mem_iff, List.mem_flatten]

/-- Non-vacuity: three sorted iterators with common elements, one of them empty, and
a run on them. -/
example : ∃ out, Imerge (· ≤ ·) [[1, 3, 3], [], [1, 2, 7]] out ∧ out = [1, 1, 2, 3, 3, 7] ∧
    uniq out = [1, 2, 3, 7] := by
  refine ⟨_, ?_, rfl, by decide⟩
  refine .step (others := [(1, [2, 7])]) (rest := [3, 3]) (List.Perm.refl _) (by decide) ?_
  refine .step (others := [(3, [3])]) (rest := [2, 7]) (List.Perm.swap _ _ _) (by decide) ?_
  refine .step (others := [(3, [3])]) (rest := [7]) (List.Perm.refl _) (by decide) ?_
  refine .step (others := [(7, [])]) (rest := [3]) (List.Perm.swap _ _ _) (by decide) ?_
  refine .step (others := [(7, [])]) (rest := []) (List.Perm.refl _) (by decide) ?_
  refine .step (others := []) (rest := []) (List.Perm.refl _) (by decide) ?_
  exact .done

end Verif
