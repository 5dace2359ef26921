/-
C37: independent task subsets.
-/
import Verif.Model.LockPartition
import Mathlib.Logic.Relation
import Mathlib.Tactic.Tauto
import Mathlib.Data.List.Nodup
import Mathlib.Data.Finset.Card
import Mathlib.Data.Finset.Sort
import Mathlib.Data.Finset.Filter

namespace Verif.Part

/-- Tasks (left) and the resources they access (right) are linked. -/
def Link (acc : ℕ → List ℕ) (tasks : List ℕ) : ℕ ⊕ ℕ → ℕ ⊕ ℕ → Prop
  | .inl t, .inr r => t ∈ tasks ∧ r ∈ acc t
  | _, _ => False

/-- Connected through a chain of shared resources. -/
abbrev Connected (acc : ℕ → List ℕ) (tasks : List ℕ) : ℕ ⊕ ℕ → ℕ ⊕ ℕ → Prop :=
  Relation.EqvGen (Link acc tasks)

/-- The orders in which Python iterates over dictionaries and sets: unspecified, but
every element exactly once. -/
structure Orders (acc : ℕ → List ℕ) (tasks keys : List ℕ) (enum : Finset ℕ → List ℕ)
    (order : List ℕ) : Prop where
  keysIff : ∀ r, r ∈ keys ↔ ∃ t ∈ tasks, r ∈ acc t
  keysNodup : keys.Nodup
  enumIff : ∀ c, (enum c).Nodup ∧ ∀ t, t ∈ enum c ↔ t ∈ c
  orderPerm : order.Perm tasks

/-! ### Sets only contain connected tasks -/

structure Inv (E : ℕ ⊕ ℕ → ℕ ⊕ ℕ → Prop) (g : ByRes) : Prop where
  next : ∀ r x, g.ref r = some x → x < g.next
  mem : ∀ r x, g.ref r = some x → ∀ t ∈ g.heap x, Relation.EqvGen E (.inl t) (.inr r)
  shared : ∀ r r' x, g.ref r = some x → g.ref r' = some x → Relation.EqvGen E (.inr r) (.inr r')

theorem Inv.get {E : ℕ ⊕ ℕ → ℕ ⊕ ℕ → Prop} {g : ByRes} (h : Inv E g) (r : ℕ) :
    Inv E (g.get r).1 ∧ (g.get r).1.ref r = some (g.get r).2 ∧
      ∀ r' x, g.ref r' = some x → (g.get r).1.ref r' = some x := by
  unfold ByRes.get
  cases hr : g.ref r with
  | some x => exact ⟨h, hr, fun _ _ h' => h'⟩
  | none =>
    refine ⟨⟨?_, ?_, ?_⟩, by simp, fun r' x h' => ?_⟩
    · intro r' x h'
      simp only at h' ⊢
      by_cases he : r' = r
      · subst he; simp at h'; omega
      · rw [Function.update_of_ne he] at h'
        have := h.next _ _ h'; omega
    · intro r' x h' t ht
      simp only at h' ht
      by_cases he : r' = r
      · subst he
        simp at h'; subst h'
        simp at ht
      · rw [Function.update_of_ne he] at h'
        have := h.next _ _ h'
        rw [Function.update_of_ne (by omega)] at ht
        exact h.mem _ _ h' t ht
    · intro r' r'' x h' h''
      simp only at h' h''
      by_cases he : r' = r <;> by_cases he' : r'' = r
      · subst he he'; exact .refl _
      · subst he
        rw [Function.update_self] at h'
        rw [Function.update_of_ne he'] at h''
        have := h.next _ _ h''
        simp only [Option.some.injEq] at h'
        omega
      · subst he'
        rw [Function.update_self] at h''
        rw [Function.update_of_ne he] at h'
        have := h.next _ _ h'
        simp only [Option.some.injEq] at h''
        omega
      · rw [Function.update_of_ne he] at h'
        rw [Function.update_of_ne he'] at h''
        exact h.shared _ _ _ h' h''
    · simp only
      by_cases he : r' = r
      · subst he; rw [hr] at h'; simp at h'
      · rw [Function.update_of_ne he]; exact h'

theorem Inv.add {E : ℕ ⊕ ℕ → ℕ ⊕ ℕ → Prop} {g : ByRes} (h : Inv E g) {r t : ℕ}
    (ht : Relation.EqvGen E (.inl t) (.inr r)) : Inv E (g.add r t) := by
  obtain ⟨h1, h2, _⟩ := h.get r
  unfold ByRes.add
  simp only
  refine ⟨fun r' x h' => h1.next r' x h', fun r' x h' s hs => ?_, fun r' r'' x h' h'' => h1.shared r' r'' x h' h''⟩
  simp only at h' hs
  by_cases hx : x = (g.get r).2
  · subst hx
    rw [Function.update_self, Finset.mem_insert] at hs
    rcases hs with rfl | hs
    · exact .trans _ _ _ ht (h1.shared _ _ _ h2 h')
    · exact h1.mem r' _ h' s hs
  · rw [Function.update_of_ne hx] at hs
    exact h1.mem r' x h' s hs

theorem Inv.merge {E : ℕ ⊕ ℕ → ℕ ⊕ ℕ → Prop} {g : ByRes} (h : Inv E g) {r other : ℕ}
    (ho : Relation.EqvGen E (.inr r) (.inr other)) : Inv E (g.merge r other) := by
  obtain ⟨h1, h2, _⟩ := h.get r
  obtain ⟨h3, h4, h5⟩ := h1.get other
  unfold ByRes.merge
  simp only
  set g2 := ((g.get r).1.get other).1
  set x := (g.get r).2
  set y := ((g.get r).1.get other).2
  have hrx : g2.ref r = some x := h5 _ _ h2
  have hmem : ∀ r', g2.ref r' = some x → ∀ t ∈ g2.heap x ∪ g2.heap y, Relation.EqvGen E (.inl t) (.inr r') := by
    intro r' h' t ht
    rcases Finset.mem_union.1 ht with ht | ht
    · exact h3.mem _ _ h' t ht
    · exact .trans _ _ _ (h3.mem _ _ h4 t ht) (.trans _ _ _ (.symm _ _ ho) (h3.shared _ _ _ hrx h'))
  refine ⟨?_, ?_, ?_⟩
  · intro r' z h'
    simp only at h' ⊢
    by_cases he : r' = other
    · subst he
      simp only [Function.update_self, Option.some.injEq] at h'
      subst h'; exact h3.next _ _ hrx
    · rw [Function.update_of_ne he] at h'; exact h3.next _ _ h'
  · intro r' z h' t ht
    simp only at h' ht
    by_cases he : r' = other
    · subst he
      simp only [Function.update_self, Option.some.injEq] at h'
      subst h'
      rw [Function.update_self] at ht
      exact .trans _ _ _ (hmem r hrx t ht) ho
    · rw [Function.update_of_ne he] at h'
      by_cases hz : z = x
      · subst hz
        rw [Function.update_self] at ht
        exact hmem r' h' t ht
      · rw [Function.update_of_ne hz] at ht
        exact h3.mem _ _ h' t ht
  · have key : ∀ r' z, Function.update g2.ref other (some x) r' = some z →
        (r' = other ∧ z = x) ∨ g2.ref r' = some z := by
      intro r' z h'
      by_cases he : r' = other
      · subst he; simp only [Function.update_self, Option.some.injEq] at h'; exact Or.inl ⟨rfl, h'.symm⟩
      · rw [Function.update_of_ne he] at h'; exact Or.inr h'
    intro r' r'' z h' h''
    rcases key _ _ h' with ⟨rfl, rfl⟩ | h' <;> rcases key _ _ h'' with ⟨rfl, hz⟩ | h''
    · exact .refl _
    · exact .trans _ _ _ (.symm _ _ ho) (h3.shared _ _ _ hrx h'')
    · subst hz; exact .trans _ _ _ (h3.shared _ _ _ h' hrx) ho
    · exact h3.shared _ _ _ h' h''

/-- All sets in `by_task` only contain connected tasks. -/
def TaskInv (E : ℕ ⊕ ℕ → ℕ ⊕ ℕ → Prop) (bt : ℕ → Option (Finset ℕ)) : Prop :=
  ∀ t c, bt t = some c → t ∈ c ∧ ∀ a ∈ c, ∀ b ∈ c, Relation.EqvGen E (.inl a) (.inl b)

theorem visit_inv (acc : ℕ → List ℕ) (tasks : List ℕ) (st : ByRes × (ℕ → Option (Finset ℕ)))
    (h : Inv (Link acc tasks) st.1) (hb : TaskInv (Link acc tasks) st.2) {t : ℕ} (ht : t ∈ tasks) :
    Inv (Link acc tasks) (visit acc st t).1 ∧ TaskInv (Link acc tasks) (visit acc st t).2 := by
  unfold visit
  cases hacc : acc t with
  | nil =>
    refine ⟨h, ?_⟩
    intro t' c hc
    simp only at hc
    by_cases he : t' = t
    · subst he
      simp only [Function.update_self, Option.some.injEq] at hc
      subst hc
      refine ⟨by simp, fun a ha b hb' => ?_⟩
      simp only [Finset.mem_singleton] at ha hb'
      subst ha hb'; exact .refl _
    · rw [Function.update_of_ne he] at hc; exact hb _ _ hc
  | cons r others =>
    refine ⟨?_, hb⟩
    simp only
    have hr : Relation.EqvGen (Link acc tasks) (.inl t) (.inr r) := .rel _ _ ⟨ht, by rw [hacc]; simp⟩
    have ho : ∀ o ∈ others, Relation.EqvGen (Link acc tasks) (.inr r) (.inr o) := fun o ho =>
      .trans _ _ _ (.symm _ _ hr) (.rel _ _ ⟨ht, by rw [hacc]; simp [ho]⟩)
    have h0 := h.add hr
    clear hacc
    generalize st.1.add r t = g at h0
    induction others generalizing g with
    | nil => exact h0
    | cons o others ih =>
      rw [List.foldl_cons]
      exact ih (fun o' ho' => ho o' (by simp [ho'])) _ (h0.merge (ho o (by simp)))

theorem fold_inv (acc : ℕ → List ℕ) (tasks : List ℕ) : ∀ (l : List ℕ) (st : ByRes × (ℕ → Option (Finset ℕ))),
    (∀ t ∈ l, t ∈ tasks) → Inv (Link acc tasks) st.1 → TaskInv (Link acc tasks) st.2 →
    Inv (Link acc tasks) (l.foldl (visit acc) st).1 ∧ TaskInv (Link acc tasks) (l.foldl (visit acc) st).2 := by
  intro l
  induction l with
  | nil => intro st _ h hb; exact ⟨h, hb⟩
  | cons t l ih =>
    intro st hl h hb
    rw [List.foldl_cons]
    obtain ⟨h1, h2⟩ := visit_inv acc tasks st h hb (hl t (by simp))
    exact ih _ (fun t' h' => hl t' (by simp [h'])) h1 h2

theorem assign_inv (P : ℕ → Finset ℕ → Prop) (c : Finset ℕ) : ∀ (l : List ℕ) (bt : ℕ → Option (Finset ℕ)),
    (∀ t ∈ l, P t c) → (∀ t c', bt t = some c' → P t c') → ∀ t c', assign c l bt t = some c' → P t c' := by
  intro l
  induction l with
  | nil => intro bt _ hb; exact hb
  | cons t l ih =>
    intro bt hl hb
    unfold assign
    by_cases hs : (bt t).isSome
    · rw [if_pos hs]; exact hb
    · rw [if_neg hs]
      refine ih _ (fun t' h' => hl t' (by simp [h'])) ?_
      intro t' c' hc
      by_cases he : t' = t
      · subst he
        simp only [Function.update_self, Option.some.injEq] at hc
        subst hc; exact hl t' (by simp)
      · rw [Function.update_of_ne he] at hc; exact hb _ _ hc

theorem assignAll_inv (P : ℕ → Finset ℕ → Prop) (enum : Finset ℕ → List ℕ) : ∀ (cs : List (Finset ℕ))
    (bt : ℕ → Option (Finset ℕ)), (∀ c ∈ cs, ∀ t ∈ enum c, P t c) → (∀ t c', bt t = some c' → P t c') →
    ∀ t c', cs.foldl (fun bt c => assign c (enum c) bt) bt t = some c' → P t c' := by
  intro cs
  induction cs with
  | nil => intro bt _ hb; exact hb
  | cons c cs ih =>
    intro bt hc hb
    rw [List.foldl_cons]
    exact ih _ (fun c' h' => hc c' (by simp [h'])) (assign_inv P c _ _ (hc c (by simp)) hb)

theorem subsetsLoop_mem (bt : ℕ → Option (Finset ℕ)) : ∀ (l : List ℕ) (done : Finset ℕ) (c : Finset ℕ),
    c ∈ subsetsLoop bt done l → ∃ t ∈ l, bt t = some c := by
  intro l
  induction l with
  | nil => intro done c h; simp [subsetsLoop] at h
  | cons t l ih =>
    intro done c h
    unfold subsetsLoop at h
    cases hbt : bt t with
    | none =>
      rw [hbt] at h
      obtain ⟨t', h1, h2⟩ := ih _ _ h
      exact ⟨t', by simp [h1], h2⟩
    | some c' =>
      rw [hbt] at h
      simp only at h
      by_cases hd : t ∈ done
      · rw [if_pos hd] at h
        obtain ⟨t', h1, h2⟩ := ih _ _ h
        exact ⟨t', by simp [h1], h2⟩
      · rw [if_neg hd] at h
        rcases List.mem_cons.1 h with rfl | h
        · exact ⟨t, by simp, hbt⟩
        · obtain ⟨t', h1, h2⟩ := ih _ _ h
          exact ⟨t', by simp [h1], h2⟩

/-- **C37**, the half that holds: whatever the iteration orders, tasks that are put into
the same subset are connected through shared resources. -/
theorem C37_connected_partial {acc : ℕ → List ℕ} {tasks keys order : List ℕ} {enum : Finset ℕ → List ℕ}
    (h : Orders acc tasks keys enum order) :
    ∀ c ∈ independentSubsets acc keys enum order tasks, c.Nonempty ∧
      ∀ a ∈ c, ∀ b ∈ c, Connected acc tasks (.inl a) (.inl b) := by
  intro c hc
  obtain ⟨t, _, hbt⟩ := subsetsLoop_mem _ _ _ _ hc
  obtain ⟨h1, h2⟩ := fold_inv acc tasks tasks (⟨fun _ => none, fun _ => ∅, 0⟩, fun _ => none)
    (fun _ h => h) ⟨by simp, by simp, by simp⟩ (by intro t c h; simp at h)
  have hall : t ∈ c ∧ ∀ a ∈ c, ∀ b ∈ c, Connected acc tasks (.inl a) (.inl b) := by
    refine assignAll_inv (fun t c => t ∈ c ∧ ∀ a ∈ c, ∀ b ∈ c, Connected acc tasks (.inl a) (.inl b))
      enum _ _ ?_ h2 t c hbt
    intro c' hc' t' ht'
    obtain ⟨r, _, hr⟩ := List.mem_filterMap.1 hc'
    obtain ⟨x, hx, rfl⟩ := Option.map_eq_some_iff.1 hr
    refine ⟨((h.enumIff _).2 t').1 ht', fun a ha b hb => ?_⟩
    exact .trans _ _ _ (h1.mem _ _ hx a ha) (.symm _ _ (h1.mem _ _ hx b hb))
  exact ⟨⟨t, hall.1⟩, hall.2⟩

/-! ### Sharing tasks may be separated -/

/-- The result is right: every task is in exactly one subset, and tasks that access a
common resource are in the same one. -/
def Separates (acc : ℕ → List ℕ) (tasks : List ℕ) (subsets : List (Finset ℕ)) : Prop :=
  (∀ t ∈ tasks, ∃ c ∈ subsets, t ∈ c) ∧ subsets.Pairwise Disjoint ∧
  ∀ t ∈ tasks, ∀ t' ∈ tasks, ∀ r, r ∈ acc t → r ∈ acc t' → ∀ c ∈ subsets, t ∈ c → t' ∈ c

/-- Four tasks: the third joins the resources of the first two after the first has made
two resources share a set. -/
def badAcc : ℕ → List ℕ
  | 0 => [1, 2]
  | 1 => [3]
  | 2 => [3, 1]
  | 3 => [2]
  | _ => []

/-- C37 is violated for every iteration order: the fourth task shares resource 2 with the
first one, but the entry of resource 2 still refers to the old set when it is visited. -/
theorem C37_violated : ¬ ∃ (keys order : List ℕ) (enum : Finset ℕ → List ℕ),
    Orders badAcc [0, 1, 2, 3] keys enum order ∧
    Separates badAcc [0, 1, 2, 3] (independentSubsets badAcc keys enum order [0, 1, 2, 3]) := by
  rintro ⟨keys, order, enum, hord, hcov, _, hshare⟩
  obtain ⟨c, hc, h0⟩ := hcov 0 (by simp)
  have h3 : 3 ∈ c := hshare 0 (by simp) 3 (by simp) 2 (by simp [badAcc]) (by simp [badAcc]) c hc h0
  have h2 : 2 ∈ c := hshare 0 (by simp) 2 (by simp) 1 (by simp [badAcc]) (by simp [badAcc]) c hc h0
  obtain ⟨t, _, hbt⟩ := subsetsLoop_mem _ _ _ _ hc
  have hall : c = {0, 1, 2} ∨ c = {0, 3} := by
    refine assignAll_inv (fun _ c => c = {0, 1, 2} ∨ c = {0, 3}) enum _ _ ?_ ?_ t c hbt
    · intro c' hc' t' _
      obtain ⟨r, hrk, hr⟩ := List.mem_filterMap.1 hc'
      obtain ⟨t'', ht'', hacc⟩ := (hord.keysIff r).1 hrk
      have hr' : r = 1 ∨ r = 2 ∨ r = 3 := by
        simp only [List.mem_cons, List.not_mem_nil, or_false] at ht''
        rcases ht'' with rfl | rfl | rfl | rfl <;> simp [badAcc] at hacc <;> omega
      rcases hr' with rfl | rfl | rfl
      · left
        have : (([0, 1, 2, 3].foldl (visit badAcc) (⟨fun _ => none, fun _ => ∅, 0⟩, fun _ => none)).1.ref 1).map
          (([0, 1, 2, 3].foldl (visit badAcc) (⟨fun _ => none, fun _ => ∅, 0⟩, fun _ => none)).1.heap)
            = some {0, 1, 2} := by decide +kernel
        rw [this] at hr
        exact (Option.some.inj hr).symm
      · right
        have : (([0, 1, 2, 3].foldl (visit badAcc) (⟨fun _ => none, fun _ => ∅, 0⟩, fun _ => none)).1.ref 2).map
          (([0, 1, 2, 3].foldl (visit badAcc) (⟨fun _ => none, fun _ => ∅, 0⟩, fun _ => none)).1.heap)
            = some {0, 3} := by decide +kernel
        rw [this] at hr
        exact (Option.some.inj hr).symm
      · left
        have : (([0, 1, 2, 3].foldl (visit badAcc) (⟨fun _ => none, fun _ => ∅, 0⟩, fun _ => none)).1.ref 3).map
          (([0, 1, 2, 3].foldl (visit badAcc) (⟨fun _ => none, fun _ => ∅, 0⟩, fun _ => none)).1.heap)
            = some {0, 1, 2} := by decide +kernel
        rw [this] at hr
        exact (Option.some.inj hr).symm
    · intro t' c' h'
      have hnone : ∀ t, ([0, 1, 2, 3].foldl (visit badAcc) (⟨fun _ => none, fun _ => ∅, 0⟩, fun _ => none)).2 t
          = none := fun t => rfl
      rw [hnone] at h'
      simp at h'
  rcases hall with rfl | rfl
  · simp at h3
  · simp at h2

/-- Non-vacuity: there are such orders. -/
example : Orders badAcc [0, 1, 2, 3] [1, 2, 3] (fun c => c.sort (· ≤ ·)) [0, 1, 2, 3] := by
  refine ⟨fun r => ?_, by decide, fun c => ⟨Finset.sort_nodup _ _, fun t => Finset.mem_sort _⟩, List.Perm.refl _⟩
  simp [badAcc]
  omega

/-! ### One resource per task -/

theorem visit_single (acc : ℕ → List ℕ) (h1 : ∀ t, (acc t).length ≤ 1) :
    ∀ (l A : List ℕ) (st : ByRes × (ℕ → Option (Finset ℕ))),
    ((∀ r x, st.1.ref r = some x → x < st.1.next) ∧
      (∀ r r' x, st.1.ref r = some x → st.1.ref r' = some x → r = r') ∧
      (∀ r, (st.1.ref r).isSome ↔ ∃ t ∈ A, r ∈ acc t) ∧
      (∀ r x, st.1.ref r = some x → ∀ t, t ∈ st.1.heap x ↔ t ∈ A ∧ r ∈ acc t) ∧
      (∀ t c, st.2 t = some c ↔ t ∈ A ∧ acc t = [] ∧ c = {t})) →
    let st' := l.foldl (visit acc) st
    (∀ r r' x, st'.1.ref r = some x → st'.1.ref r' = some x → r = r') ∧
      (∀ r, (st'.1.ref r).isSome ↔ ∃ t ∈ A ++ l, r ∈ acc t) ∧
      (∀ r x, st'.1.ref r = some x → ∀ t, t ∈ st'.1.heap x ↔ t ∈ A ++ l ∧ r ∈ acc t) ∧
      (∀ t c, st'.2 t = some c ↔ t ∈ A ++ l ∧ acc t = [] ∧ c = {t}) := by
  intro l
  induction l with
  | nil =>
    intro A st h
    simpa using h.2
  | cons t l ih =>
    intro A st ⟨g1, g2, g3, g4, g5⟩
    have hrec := ih (A ++ [t]) (visit acc st t)
    rw [List.append_assoc, List.singleton_append] at hrec
    refine hrec ?_
    clear hrec ih
    unfold visit
    have hl := h1 t
    match hacc : acc t with
    | [] =>
      simp only
      refine ⟨g1, g2, fun r => ?_, fun r x hx t' => ?_, fun t' c => ?_⟩
      · rw [g3]
        simp only [List.mem_append, List.mem_singleton]
        constructor
        · rintro ⟨t', h, h'⟩; exact ⟨t', Or.inl h, h'⟩
        · rintro ⟨t', h | rfl, h'⟩
          · exact ⟨t', h, h'⟩
          · rw [hacc] at h'; simp at h'
      · rw [g4 r x hx]
        simp only [List.mem_append, List.mem_singleton]
        constructor
        · rintro ⟨h, h'⟩; exact ⟨Or.inl h, h'⟩
        · rintro ⟨h | rfl, h'⟩
          · exact ⟨h, h'⟩
          · rw [hacc] at h'; simp at h'
      · by_cases he : t' = t
        · subst he
          rw [Function.update_self]
          simp [hacc, eq_comm]
        · rw [Function.update_of_ne he, g5]
          simp [he]
    | [r] =>
      simp only [List.foldl_nil]
      have hone : ∀ r', r' ∈ acc t ↔ r' = r := by rw [hacc]; simp
      have g5' : ∀ t' c, st.2 t' = some c ↔ t' ∈ A ++ [t] ∧ acc t' = [] ∧ c = {t'} := by
        intro t' c
        rw [g5]
        simp only [List.mem_append, List.mem_singleton]
        constructor
        · rintro ⟨h, h'⟩; exact ⟨Or.inl h, h'⟩
        · rintro ⟨h | rfl, h'⟩
          · exact ⟨h, h'⟩
          · rw [hacc] at h'; simp at h'
      unfold ByRes.add ByRes.get
      cases hr : st.1.ref r with
      | some x =>
        simp only
        refine ⟨g1, g2, fun r' => ?_, fun r' y hy t' => ?_, g5'⟩
        · rw [g3]
          simp only [List.mem_append, List.mem_singleton]
          constructor
          · rintro ⟨t', h, h'⟩; exact ⟨t', Or.inl h, h'⟩
          · rintro ⟨t', h | rfl, h'⟩
            · exact ⟨t', h, h'⟩
            · rw [hone] at h'; subst h'
              exact (g3 _).1 (by rw [hr]; rfl)
        · simp only [List.mem_append, List.mem_singleton]
          by_cases hyx : y = x
          · subst hyx
            have : r' = r := g2 _ _ _ hy hr
            subst this
            rw [Function.update_self, Finset.mem_insert, g4 _ _ hr]
            constructor
            · rintro (rfl | ⟨h, h'⟩)
              · exact ⟨Or.inr rfl, (hone _).2 rfl⟩
              · exact ⟨Or.inl h, h'⟩
            · rintro ⟨h | rfl, h'⟩
              · exact Or.inr ⟨h, h'⟩
              · exact Or.inl rfl
          · rw [Function.update_of_ne hyx, g4 _ _ hy]
            have hne : r' ≠ r := by rintro rfl; rw [hr] at hy; exact hyx (Option.some.inj hy).symm
            constructor
            · rintro ⟨h, h'⟩; exact ⟨Or.inl h, h'⟩
            · rintro ⟨h | rfl, h'⟩
              · exact ⟨h, h'⟩
              · exact absurd ((hone _).1 h') hne
      | none =>
        simp only
        refine ⟨fun r' y hy => ?_, fun r' r'' y hy hy' => ?_, fun r' => ?_, fun r' y hy t' => ?_, g5'⟩
        · by_cases he : r' = r
          · subst he; simp at hy; omega
          · rw [Function.update_of_ne he] at hy
            have := g1 _ _ hy; omega
        · by_cases he : r' = r <;> by_cases he' : r'' = r
          · rw [he, he']
          · subst he
            rw [Function.update_self] at hy
            rw [Function.update_of_ne he'] at hy'
            have := g1 _ _ hy'
            have := Option.some.inj hy
            omega
          · subst he'
            rw [Function.update_self] at hy'
            rw [Function.update_of_ne he] at hy
            have := g1 _ _ hy
            have := Option.some.inj hy'
            omega
          · rw [Function.update_of_ne he] at hy
            rw [Function.update_of_ne he'] at hy'
            exact g2 _ _ _ hy hy'
        · simp only [List.mem_append, List.mem_singleton]
          by_cases he : r' = r
          · subst he
            simp only [Function.update_self, Option.isSome_some, true_iff]
            exact ⟨t, Or.inr rfl, (hone _).2 rfl⟩
          · rw [Function.update_of_ne he, g3]
            constructor
            · rintro ⟨t', h, h'⟩; exact ⟨t', Or.inl h, h'⟩
            · rintro ⟨t', h | rfl, h'⟩
              · exact ⟨t', h, h'⟩
              · exact absurd ((hone _).1 h') he
        · simp only [List.mem_append, List.mem_singleton]
          by_cases he : r' = r
          · subst he
            simp only [Function.update_self, Option.some.injEq] at hy
            subst hy
            simp only [Function.update_self, Finset.mem_insert, Finset.notMem_empty, or_false]
            constructor
            · rintro rfl; exact ⟨Or.inr rfl, (hone _).2 rfl⟩
            · rintro ⟨h | rfl, h'⟩
              · exfalso
                have := (g3 r').2 ⟨t', h, h'⟩
                rw [hr] at this; simp at this
              · rfl
          · rw [Function.update_of_ne he] at hy
            have := g1 _ _ hy
            rw [Function.update_of_ne (by omega), Function.update_of_ne (by omega), g4 _ _ hy]
            constructor
            · rintro ⟨h, h'⟩; exact ⟨Or.inl h, h'⟩
            · rintro ⟨h | rfl, h'⟩
              · exact ⟨h, h'⟩
              · exact absurd ((hone _).1 h') he
    | _ :: _ :: _ => rw [hacc] at hl; simp at hl

theorem assign_all (c : Finset ℕ) : ∀ (l : List ℕ) (bt : ℕ → Option (Finset ℕ)), l.Nodup →
    (∀ t ∈ l, bt t = none) → ∀ t, assign c l bt t = if t ∈ l then some c else bt t := by
  intro l
  induction l with
  | nil => intro bt _ _ t; simp [assign]
  | cons a l ih =>
    intro bt hnd hn t
    unfold assign
    rw [if_neg (by rw [hn a (by simp)]; simp)]
    have hal := (List.nodup_cons.1 hnd).1
    rw [ih _ (List.nodup_cons.1 hnd).2 (fun t' h' => by
      rw [Function.update_of_ne (by rintro rfl; exact hal h')]; exact hn t' (by simp [h']))]
    by_cases hta : t = a
    · subst hta; simp [hal]
    · rw [Function.update_of_ne hta]; simp [hta]

/-- **C37** for tasks with at most one resource each: the subsets are exactly as
specified, whatever the iteration orders. -/
theorem C37_single_partial {acc : ℕ → List ℕ} {tasks keys order : List ℕ} {enum : Finset ℕ → List ℕ}
    (h : Orders acc tasks keys enum order) (h1 : ∀ t, (acc t).length ≤ 1) :
    Separates acc tasks (independentSubsets acc keys enum order tasks) := by
  obtain ⟨g2, g3, g4, g5⟩ := visit_single acc h1 tasks [] (⟨fun _ => none, fun _ => ∅, 0⟩, fun _ => none)
    ⟨by simp, by simp, by simp, by simp, by simp⟩
  simp only [List.nil_append] at g3 g4 g5
  set st := tasks.foldl (visit acc) (⟨fun _ => none, fun _ => ∅, 0⟩, fun _ => none) with hst
  -- the class of a task
  have huniq : ∀ t r r', r ∈ acc t → r' ∈ acc t → r = r' := by
    intro t r r' hr hr'
    have := h1 t
    match hacc : acc t with
    | [] => rw [hacc] at hr; simp at hr
    | [a] => rw [hacc] at hr hr'; simp at hr hr'; rw [hr, hr']
    | _ :: _ :: _ => rw [hacc] at this; simp at this
  -- `by_task` after the second loop
  have hfold : ∀ (ks : List ℕ) (bt : ℕ → Option (Finset ℕ)), ks.Nodup →
      (∀ r ∈ ks, ∀ t ∈ tasks, r ∈ acc t → bt t = none) →
      (∀ r ∈ ks, ∃ t ∈ tasks, r ∈ acc t) →
      ∀ t c, (ks.filterMap (fun r => (st.1.ref r).map st.1.heap)).foldl
          (fun bt c => assign c (enum c) bt) bt t = some c ↔
        (bt t = some c ∨ ∃ r ∈ ks, t ∈ tasks ∧ r ∈ acc t ∧ ∀ t', t' ∈ c ↔ t' ∈ tasks ∧ r ∈ acc t') := by
    intro ks
    induction ks with
    | nil => intro bt _ _ _ t c; simp
    | cons r ks ih =>
      intro bt hnd hnone hused t c
      obtain ⟨x, hx⟩ := Option.isSome_iff_exists.1 ((g3 r).2 (hused r (by simp)))
      have hrks := (List.nodup_cons.1 hnd).1
      rw [List.filterMap_cons_some (b := st.1.heap x) (by rw [hx]; rfl), List.foldl_cons]
      have hassign := assign_all (st.1.heap x) (enum (st.1.heap x)) bt (h.enumIff _).1 (fun t' ht' => by
        have := (g4 r x hx t').1 (((h.enumIff _).2 t').1 ht')
        exact hnone r (by simp) t' this.1 this.2)
      have hmemx : ∀ t', t' ∈ enum (st.1.heap x) ↔ t' ∈ tasks ∧ r ∈ acc t' := fun t' =>
        ((h.enumIff _).2 t').trans (g4 r x hx t')
      rw [ih _ (List.nodup_cons.1 hnd).2 (fun r' hr' t' ht' hacc => by
          rw [hassign, if_neg]
          · exact hnone r' (by simp [hr']) t' ht' hacc
          · intro hc
            have := huniq t' r r' ((hmemx t').1 hc).2 hacc
            subst this; exact hrks hr') (fun r' hr' => hused r' (by simp [hr'])), hassign]
      constructor
      · rintro (hc | ⟨r', hr', hh⟩)
        · by_cases hm : t ∈ enum (st.1.heap x)
          · rw [if_pos hm] at hc
            have := (hmemx t).1 hm
            refine Or.inr ⟨r, by simp, this.1, this.2, ?_⟩
            rw [← Option.some.inj hc]; exact g4 r x hx
          · rw [if_neg hm] at hc; exact Or.inl hc
        · exact Or.inr ⟨r', by simp [hr'], hh⟩
      · rintro (hc | ⟨r', hr', ht, hacc, hh⟩)
        · left
          rw [if_neg]
          · exact hc
          · intro hm
            have := (hmemx t).1 hm
            rw [hnone r (by simp) t this.1 this.2] at hc
            simp at hc
        · rcases List.mem_cons.1 hr' with rfl | hr'
          · left
            rw [if_pos ((hmemx t).2 ⟨ht, hacc⟩)]
            congr 1
            ext t'
            rw [g4 _ x hx, hh]
          · exact Or.inr ⟨r', hr', ht, hacc, hh⟩
  have hbt : ∀ t c, byTask acc keys enum tasks t = some c ↔
      (t ∈ tasks ∧ acc t = [] ∧ c = {t}) ∨
        ∃ r, t ∈ tasks ∧ r ∈ acc t ∧ ∀ t', t' ∈ c ↔ t' ∈ tasks ∧ r ∈ acc t' := by
    intro t c
    unfold byTask
    rw [← hst, hfold keys st.2 h.keysNodup (fun r _ t ht hacc => by
      cases hc : st.2 t with
      | none => rfl
      | some c =>
        have := ((g5 t c).1 hc).2.1
        rw [this] at hacc; simp at hacc) (fun r hr => (h.keysIff r).1 hr), g5]
    constructor
    · rintro (hc | ⟨r, _, hh⟩)
      · exact Or.inl hc
      · exact Or.inr ⟨r, hh⟩
    · rintro (hc | ⟨r, ht, hacc, hh⟩)
      · exact Or.inl hc
      · exact Or.inr ⟨r, (h.keysIff r).2 ⟨t, ht, hacc⟩, ht, hacc, hh⟩
  -- the class of a task does not depend on the member
  have hclass : ∀ t t' c c', byTask acc keys enum tasks t = some c → byTask acc keys enum tasks t' = some c' →
      ∀ a, a ∈ c → a ∈ c' → c = c' := by
    intro t t' c c' hc hc' a ha ha'
    rcases (hbt t c).1 hc with ⟨_, he, rfl⟩ | ⟨r, ht, hacc, hh⟩ <;>
      rcases (hbt t' c').1 hc' with ⟨_, he', rfl⟩ | ⟨r', ht', hacc', hh'⟩
    · simp only [Finset.mem_singleton] at ha ha'; rw [← ha, ← ha']
    · simp only [Finset.mem_singleton] at ha
      subst ha
      have := ((hh' _).1 ha').2
      rw [he] at this; simp at this
    · simp only [Finset.mem_singleton] at ha'
      subst ha'
      have := ((hh _).1 ha).2
      rw [he'] at this; simp at this
    · have := huniq a r r' ((hh a).1 ha).2 ((hh' a).1 ha').2
      subst this
      ext b; rw [hh, hh']
  have hself : ∀ t c, byTask acc keys enum tasks t = some c → t ∈ c := by
    intro t c hc
    rcases (hbt t c).1 hc with ⟨_, _, rfl⟩ | ⟨r, ht, hacc, hh⟩
    · simp
    · exact (hh t).2 ⟨ht, hacc⟩
  have htot : ∀ t ∈ tasks, ∃ c, byTask acc keys enum tasks t = some c := by
    intro t ht
    match hacc : acc t with
    | [] => exact ⟨{t}, (hbt _ _).2 (Or.inl ⟨ht, hacc, rfl⟩)⟩
    | r :: _ =>
      exact ⟨tasks.toFinset.filter (fun t' => r ∈ acc t'), (hbt _ _).2 (Or.inr ⟨r, ht, by rw [hacc]; simp,
        fun t' => by simp⟩)⟩
  -- the last loop
  have hloop : ∀ (l : List ℕ) (done : Finset ℕ),
      (∀ t c, byTask acc keys enum tasks t = some c → ∀ a ∈ c, a ∈ done → c ⊆ done) →
      (∀ t ∈ l, t ∈ tasks → t ∈ done ∨ ∃ c ∈ subsetsLoop (byTask acc keys enum tasks) done l, t ∈ c) ∧
      (subsetsLoop (byTask acc keys enum tasks) done l).Pairwise Disjoint ∧
      ∀ c ∈ subsetsLoop (byTask acc keys enum tasks) done l, Disjoint c done := by
    intro l
    induction l with
    | nil => intro done _; simp [subsetsLoop]
    | cons t l ih =>
      intro done hdone
      unfold subsetsLoop
      cases hc : byTask acc keys enum tasks t with
      | none =>
        simp only
        obtain ⟨i1, i2, i3⟩ := ih done hdone
        refine ⟨fun t' ht' htt => ?_, i2, i3⟩
        rcases List.mem_cons.1 ht' with rfl | ht'
        · obtain ⟨c, hc'⟩ := htot t' htt
          rw [hc] at hc'; simp at hc'
        · exact i1 t' ht' htt
      | some c =>
        simp only
        by_cases hd : t ∈ done
        · rw [if_pos hd]
          obtain ⟨i1, i2, i3⟩ := ih done hdone
          refine ⟨fun t' ht' htt => ?_, i2, i3⟩
          rcases List.mem_cons.1 ht' with rfl | ht'
          · exact Or.inl hd
          · exact i1 t' ht' htt
        · rw [if_neg hd]
          obtain ⟨i1, i2, i3⟩ := ih (done ∪ c) (by
            intro t' c' hc' a ha had
            rcases Finset.mem_union.1 had with had | had
            · exact (hdone _ _ hc' a ha had).trans Finset.subset_union_left
            · rw [hclass _ _ _ _ hc' hc a ha had]; exact Finset.subset_union_right)
          refine ⟨fun t' ht' htt => ?_, ?_, ?_⟩
          · rcases List.mem_cons.1 ht' with rfl | ht'
            · exact Or.inr ⟨c, by simp, hself _ _ hc⟩
            · rcases i1 t' ht' htt with hin | ⟨c', hc', hin⟩
              · rcases Finset.mem_union.1 hin with hin | hin
                · exact Or.inl hin
                · exact Or.inr ⟨c, by simp, hin⟩
              · exact Or.inr ⟨c', by simp [hc'], hin⟩
          · rw [List.pairwise_cons]
            exact ⟨fun c' hc' => ((i3 c' hc').mono_right Finset.subset_union_right).symm, i2⟩
          · intro c' hc'
            rcases List.mem_cons.1 hc' with rfl | hc'
            · rw [Finset.disjoint_left]
              intro a ha had
              exact hd (hdone _ _ hc a ha had (hself _ _ hc))
            · exact (i3 c' hc').mono_right Finset.subset_union_left
  obtain ⟨i1, i2, _⟩ := hloop order ∅ (by simp)
  refine ⟨fun t ht => ?_, i2, fun t ht t' ht' r hr hr' c hc htc => ?_⟩
  · rcases i1 t (h.orderPerm.mem_iff.2 ht) ht with h' | h'
    · simp at h'
    · exact h'
  · obtain ⟨s, _, hs⟩ := subsetsLoop_mem _ _ _ _ hc
    rcases (hbt s c).1 hs with ⟨_, he, rfl⟩ | ⟨r', hs', hacc', hh'⟩
    · simp only [Finset.mem_singleton] at htc
      subst htc
      rw [he] at hr; simp at hr
    · have := huniq t r r' hr ((hh' t).1 htc).2
      subst this
      exact (hh' t').2 ⟨ht', hr'⟩

/-- Non-vacuity: three tasks, two of which share a resource. -/
example : Orders (fun t => if t = 2 then [] else [7]) [0, 1, 2] [7] (fun c => c.sort (· ≤ ·)) [0, 1, 2] := by
  refine ⟨fun r => ?_, by decide, fun c => ⟨Finset.sort_nodup _ _, fun t => Finset.mem_sort _⟩, List.Perm.refl _⟩
  simp

end Verif.Part
