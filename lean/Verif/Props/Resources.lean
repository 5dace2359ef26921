/-
C35 (group locks) and C36 (flattening of nested critical sections).
-/
import Verif.Model.Resources
import Mathlib.Data.List.Nodup
import Mathlib.Logic.Relation
import Mathlib.Tactic.Linarith
import Mathlib.Tactic.Ring

namespace Verif.Res

open Sections

/-! ### Specification: sections by their place -/

/-- The section at a place: a non-empty path of list positions, outermost first. -/
def sectionAt : Sections → List ℕ → Option (ℤ × ℚ × Sections)
  | .nil, _ => none
  | .cons _ _ _ _, [] => none
  | .cons r l ns _, [0] => some (r, l, ns)
  | .cons _ _ ns _, 0 :: j :: p => sectionAt ns (j :: p)
  | .cons _ _ _ rest, (i + 1) :: p => sectionAt rest (i :: p)

/-- The ids of the resources held by the enclosing sections of a place, innermost
first. -/
def heldAt (h : List ℤ) : Sections → List ℕ → List ℤ
  | .nil, _ => h
  | .cons _ _ _ _, [] => h
  | .cons _ _ _ _, [0] => h
  | .cons r _ ns _, 0 :: j :: p => heldAt (r :: h) ns (j :: p)
  | .cons _ _ _ rest, (i + 1) :: p => heldAt h rest (i :: p)

/-! ### Iteration -/

theorem mem_iter_iff (n : Node) (s : Sections) : ∀ (pre : List ℕ) (outer : Option (List ℕ))
    (held : List ℤ) (k : ℕ), n ∈ iter pre outer held k s ↔
      ∃ i p r l ns, sectionAt s (i :: p) = some (r, l, ns) ∧ n.path = pre ++ (k + i) :: p ∧
        n.res = r ∧ n.length = l ∧ n.nested = ns ∧ n.held = heldAt held s (i :: p) ∧
        n.outer = if p = [] then outer else some (pre ++ (k + i) :: p).dropLast := by
  induction s with
  | nil => intro pre outer held k; simp [iter, sectionAt]
  | cons r l ns rest ih1 ih2 =>
    intro pre outer held k
    simp only [iter, List.mem_cons, List.mem_append]
    constructor
    · rintro (rfl | h | h)
      · exact ⟨0, [], r, l, ns, by simp [sectionAt, heldAt]⟩
      · obtain ⟨i, p, r', l', ns', h1, h2, h3, h4, h5, h6, h7⟩ := (ih1 _ _ _ _).1 h
        refine ⟨0, i :: p, r', l', ns', h1, by simpa using h2, h3, h4, h5, h6, ?_⟩
        rw [h7]
        by_cases hp : p = []
        · subst hp
          simp only [if_true, if_neg (List.cons_ne_nil _ _), Nat.zero_add, Nat.add_zero]
          rw [show pre ++ [k, i] = (pre ++ [k]) ++ [i] by simp, List.dropLast_concat]
        · rw [if_neg hp, if_neg (by simp)]
          simp
      · obtain ⟨i, p, r', l', ns', h1, h2, h3, h4, h5, h6, h7⟩ := (ih2 _ _ _ _).1 h
        refine ⟨i + 1, p, r', l', ns', h1, ?_, h3, h4, h5, h6, ?_⟩
        · rw [h2]; congr 2; omega
        · rw [h7]
          have : k + 1 + i = k + (i + 1) := by omega
          rw [this]
    · rintro ⟨i, p, r', l', ns', h1, h2, h3, h4, h5, h6, h7⟩
      match i, p with
      | 0, [] =>
        left
        simp only [sectionAt, Option.some.injEq, Prod.mk.injEq] at h1
        obtain ⟨rfl, rfl, rfl⟩ := h1
        cases n
        simp only at h2 h3 h4 h5 h6 h7
        subst h2 h3 h4 h5 h6 h7
        simp [heldAt]
      | 0, j :: p =>
        right; left
        refine (ih1 _ _ _ _).2 ⟨j, p, r', l', ns', h1, by simpa using h2, h3, h4, h5, h6, ?_⟩
        rw [h7, if_neg (by simp)]
        by_cases hp : p = []
        · subst hp
          simp only [if_true, Nat.zero_add, Nat.add_zero]
          rw [show pre ++ [k, j] = (pre ++ [k]) ++ [j] by simp, List.dropLast_concat]
        · rw [if_neg hp]; simp
      | i + 1, p =>
        right; right
        have : k + 1 + i = k + (i + 1) := by omega
        exact (ih2 _ _ _ _).2 ⟨i, p, r', l', ns', h1, by rw [this]; exact h2, h3, h4, h5, h6,
          by rw [this]; exact h7⟩

/-- The sections visited are exactly those of the forest. -/
theorem mem_all_iff (n : Node) (s : Sections) : n ∈ s.all ↔
    ∃ p, sectionAt s p = some (n.res, n.length, n.nested) ∧ n.path = p ∧ n.held = heldAt [] s p ∧
      n.outer = if p.length = 1 then none else some p.dropLast := by
  unfold Sections.all
  rw [mem_iter_iff]
  constructor
  · rintro ⟨i, p, r, l, ns, h1, h2, rfl, rfl, rfl, h6, h7⟩
    refine ⟨i :: p, h1, by simpa using h2, h6, ?_⟩
    rw [h7]
    cases p <;> simp
  · rintro ⟨p, h1, h2, h3, h4⟩
    cases p with
    | nil => cases s <;> simp [sectionAt] at h1
    | cons i p =>
      refine ⟨i, p, _, _, _, h1, by simpa using h2, rfl, rfl, rfl, h3, ?_⟩
      rw [h4]
      cases p <;> simp

theorem iter_path_prefix (s : Sections) {pre : List ℕ} {outer : Option (List ℕ)} {held : List ℤ}
    {k : ℕ} {n : Node} (h : n ∈ iter pre outer held k s) :
    ∃ j p, k ≤ j ∧ n.path = pre ++ j :: p := by
  obtain ⟨i, p, _, _, _, _, h2, _⟩ := (mem_iter_iff n s _ _ _ _).1 h
  exact ⟨k + i, p, by omega, h2⟩

theorem iter_nodup (s : Sections) : ∀ (pre : List ℕ) (outer : Option (List ℕ)) (held : List ℤ) (k : ℕ),
    ((iter pre outer held k s).map Node.path).Nodup := by
  induction s with
  | nil => intro pre outer held k; simp [iter]
  | cons r l ns rest ih1 ih2 =>
    intro pre outer held k
    simp only [iter, List.map_cons, List.map_append]
    rw [List.nodup_cons]
    refine ⟨?_, ?_⟩
    · simp only [List.mem_append, List.mem_map, not_or, not_exists, not_and]
      refine ⟨fun n hn he => ?_, fun n hn he => ?_⟩
      · obtain ⟨j, p, _, h2⟩ := iter_path_prefix _ hn
        rw [h2] at he
        have := congrArg List.length he
        simp at this
      · obtain ⟨j, p, h1, h2⟩ := iter_path_prefix _ hn
        rw [h2] at he
        have := List.append_cancel_left he
        simp only [List.cons.injEq] at this
        omega
    · rw [List.nodup_append]
      refine ⟨ih1 _ _ _ _, ih2 _ _ _ _, ?_⟩
      intro a ha c hc hac
      simp only [List.mem_map] at ha hc
      obtain ⟨n, hn, rfl⟩ := ha
      obtain ⟨m, hm, rfl⟩ := hc
      obtain ⟨j, p, h1, h2⟩ := iter_path_prefix _ hn
      obtain ⟨j', p', h1', h2'⟩ := iter_path_prefix _ hm
      rw [h2, h2', List.append_assoc] at hac
      have := List.append_cancel_left hac
      simp only [List.singleton_append, List.cons.injEq] at this
      omega

/-- Outer sections come first. -/
theorem iter_outer_first (s : Sections) : ∀ (pre : List ℕ) (outer : Option (List ℕ)) (held : List ℤ)
    (k : ℕ) (A : List Node) (n : Node) (B : List Node), iter pre outer held k s = A ++ n :: B →
      n.outer = outer ∨ ∃ o, n.outer = some o ∧ o ∈ A.map Node.path := by
  induction s with
  | nil => intro pre outer held k A n B h; simp [iter] at h
  | cons r l ns rest ih1 ih2 =>
    intro pre outer held k A n B h
    simp only [iter] at h
    cases A with
    | nil =>
      simp only [List.nil_append, List.cons.injEq] at h
      left; rw [← h.1]
    | cons a A =>
      simp only [List.cons_append, List.cons.injEq] at h
      obtain ⟨ha, h⟩ := h
      rcases List.append_eq_append_iff.1 h with ⟨C, hC1, hC2⟩ | ⟨C, hC1, hC2⟩
      · -- n in the rest
        rcases ih2 _ _ _ _ C n B hC2 with h1 | ⟨o, h1, h2⟩
        · left; exact h1
        · right
          refine ⟨o, h1, ?_⟩
          rw [hC1]
          simp only [List.map_cons, List.map_append, List.mem_cons, List.mem_append]
          right; right; exact h2
      · cases C with
        | nil =>
          rw [List.append_nil] at hC1
          rw [List.nil_append] at hC2
          rcases ih2 _ _ _ _ [] n B hC2.symm with h1 | ⟨o, h1, h2⟩
          · left; exact h1
          · simp at h2
        | cons c C =>
          simp only [List.cons_append, List.cons.injEq] at hC2
          obtain ⟨rfl, hC2⟩ := hC2
          right
          rcases ih1 _ _ _ _ A n C hC1 with h1 | ⟨o, h1, h2⟩
          · exact ⟨_, h1, by rw [← ha]; simp⟩
          · exact ⟨o, h1, by simp only [List.map_cons, List.mem_cons]; right; exact h2⟩

theorem flatLoop_spec (all : List Node) (hnd : (all.map Node.path).Nodup)
    (hfirst : ∀ A n B, all = A ++ n :: B → n.outer = none ∨ ∃ o, n.outer = some o ∧ o ∈ A.map Node.path) :
    ∀ (B A : List Node) (idx : List ℕ → Option ℕ), all = A ++ B →
      (∀ p ∈ A.map Node.path, idx p = some ((all.map Node.path).idxOf p)) →
      flatLoop A.length idx B = some (B.map (fun n => (n.res, n.length,
        match n.outer with
        | none => -1
        | some o => (((all.map Node.path).idxOf o : ℕ) : ℤ)))) := by
  intro B
  induction B with
  | nil => intro A idx _ _; rfl
  | cons n B ih =>
    intro A idx hall hidx
    have hlen : (all.map Node.path).idxOf n.path = A.length := by
      rw [hall, List.map_append, List.map_cons, List.idxOf_append_of_notMem]
      · simp
      · intro hc
        rw [hall, List.map_append, List.map_cons, List.nodup_append] at hnd
        exact hnd.2.2 _ hc n.path (by simp) rfl
    have hidx' : ∀ p ∈ (A ++ [n]).map Node.path,
        Function.update idx n.path (some A.length) p = some ((all.map Node.path).idxOf p) := by
      intro p hp
      by_cases h : p = n.path
      · subst h; rw [Function.update_self, hlen]
      · rw [Function.update_of_ne h]
        apply hidx
        simp only [List.map_append, List.mem_append, List.map_cons, List.map_nil,
          List.mem_singleton] at hp
        exact hp.resolve_right h
    have hrec := ih (A ++ [n]) (Function.update idx n.path (some A.length)) (by rw [hall]; simp) hidx'
    rw [List.length_append, List.length_singleton] at hrec
    unfold flatLoop
    simp only
    rcases hfirst A n B hall with h | ⟨o, h, ho⟩
    · simp only [h, hrec, Option.map_some, List.map_cons]
    · have := hidx' o (by simp only [List.map_append, List.mem_append]; left; exact ho)
      simp only [h, this, hrec, Option.map_some, List.map_cons]

/-- **C36**, flattening: `all_flat` ends without an exception, and there is an order `ps`
of the places of all sections, each exactly once, such that entry `i` carries the id and
length of the section at place `i` and, as third component, `-1` for an outermost section
and otherwise the position of the directly enclosing section, which comes earlier. -/
theorem C36_flat (s : Sections) :
    ∃ (ps : List (List ℕ)) (out : List (ℤ × ℚ × ℤ)), s.allFlat = some out ∧ ps.Nodup ∧
      (∀ p, p ∈ ps ↔ (sectionAt s p).isSome) ∧ out.length = ps.length ∧
      ∀ i (hi : i < ps.length) (hi' : i < out.length), ∃ nested parent,
        sectionAt s ps[i] = some (out[i].1, out[i].2.1, nested) ∧ out[i].2.2 = parent ∧
        ((ps[i].length = 1 ∧ parent = -1) ∨
          (2 ≤ ps[i].length ∧ ∃ j, ∃ hj : j < i, parent = (j : ℤ) ∧
            ps[j]'(hj.trans hi) = ps[i].dropLast)) := by
  have hfirst : ∀ A n B, s.all = A ++ n :: B →
      n.outer = none ∨ ∃ o, n.outer = some o ∧ o ∈ A.map Node.path :=
    fun A n B h => iter_outer_first s _ _ _ _ A n B h
  have hnd : (s.all.map Node.path).Nodup := iter_nodup s _ _ _ _
  have hspec := flatLoop_spec s.all hnd hfirst s.all [] (fun _ => none) rfl (by simp)
  refine ⟨s.all.map Node.path, _, hspec, hnd, fun p => ?_, by simp, fun i hi hi' => ?_⟩
  · rw [List.mem_map]
    constructor
    · rintro ⟨n, hn, rfl⟩
      obtain ⟨p, h1, rfl, _⟩ := (mem_all_iff n s).1 hn
      rw [h1]; rfl
    · intro h
      obtain ⟨⟨r, l, ns⟩, hv⟩ := Option.isSome_iff_exists.1 h
      exact ⟨⟨p, r, l, ns, if p.length = 1 then none else some p.dropLast, heldAt [] s p⟩,
        (mem_all_iff _ s).2 ⟨p, hv, rfl, rfl, rfl⟩, rfl⟩
  · have hi0 : i < s.all.length := by simpa using hi
    have hmem : s.all[i] ∈ s.all := List.getElem_mem hi0
    obtain ⟨p, h1, h2, h3, h4⟩ := (mem_all_iff _ s).1 hmem
    simp only [List.getElem_map]
    rw [h2]
    refine ⟨_, _, h1, rfl, ?_⟩
    have hsplit : s.all = s.all.take i ++ s.all[i] :: s.all.drop (i + 1) := by
      rw [← List.drop_eq_getElem_cons hi0, List.take_append_drop]
    by_cases hp : p.length = 1
    · left
      rw [if_pos hp] at h4
      rw [h4]
      exact ⟨hp, rfl⟩
    · right
      rw [if_neg hp] at h4
      have hp0 : p ≠ [] := by
        intro hc
        rw [hc] at h1
        have hnil : ∀ s : Sections, sectionAt s [] = none := by intro s; cases s <;> rfl
        rw [hnil] at h1
        simp at h1
      have hp1 : 1 ≤ p.length := List.length_pos_iff.2 hp0
      refine ⟨by omega, ?_⟩
      rcases hfirst _ _ _ hsplit with h | ⟨o, h, ho⟩
      · rw [h4] at h; simp at h
      · rw [h4] at h ⊢
        simp only [Option.some.injEq] at h
        rw [h]
        simp only
        have hlt : (s.all.map Node.path).idxOf o < i := by
          conv_lhs => rw [hsplit]
          rw [List.map_append, List.idxOf_append_of_mem ho]
          refine (List.idxOf_lt_length_of_mem ho).trans_le ?_
          simp
        refine ⟨_, hlt, rfl, ?_⟩
        have := List.getElem_idxOf (xs := s.all.map Node.path) (x := o) (by simpa using hlt.trans hi0)
        rw [List.getElem_map] at this
        exact this

/-- **C36**, lengths: the lengths of all sections add up to the sum of the total lengths
of the outermost ones. -/
theorem C36_total_length (s : Sections) :
    (s.all.map Node.length).sum = (s.top.map Prod.snd).sum := by
  have h1 : ∀ (s : Sections) (pre : List ℕ) (outer : Option (List ℕ)) (held : List ℤ) (k : ℕ),
      ((iter pre outer held k s).map Node.length).sum = s.totalLengths := by
    intro s
    induction s with
    | nil => intros; rfl
    | cons r l ns rest ih1 ih2 =>
      intro pre outer held k
      simp only [iter, List.map_cons, List.map_append, List.sum_cons, List.sum_append, ih1, ih2,
        totalLengths]
      ring
  have h2 : ∀ s : Sections, (s.top.map Prod.snd).sum = s.totalLengths := by
    intro s
    induction s with
    | nil => rfl
    | cons r l ns rest _ ih2 => simp only [top, List.map_cons, List.sum_cons, ih2, totalLengths]
  unfold Sections.all
  rw [h1, h2]

/-! ### Nesting order -/

theorem nestingOrdered_iff (res : ℤ) (s : Sections) : s.nestingOrdered res = true ↔
    ∀ i r l ns, sectionAt s [i] = some (r, l, ns) → res < r := by
  induction s with
  | nil => simp [nestingOrdered, sectionAt]
  | cons r l ns rest _ ih =>
    unfold nestingOrdered
    by_cases h : r ≤ res
    · rw [if_pos h]
      simp only [Bool.false_eq_true, false_iff]
      intro hc
      have := hc 0 r l ns rfl
      omega
    · rw [if_neg h, ih]
      constructor
      · intro hh i r' l' ns' hs
        cases i with
        | zero =>
          simp only [sectionAt, Option.some.injEq, Prod.mk.injEq] at hs
          omega
        | succ i => exact hh i r' l' ns' hs
      · intro hh i r' l' ns' hs
        exact hh (i + 1) r' l' ns' hs

/-- **C36**, nesting order: `all_nesting_well_ordered` holds iff the ids increase strictly
from the outside to the inside along every chain of nested sections. -/
theorem C36_well_ordered (s : Sections) : s.allNestingWellOrdered = true ↔
    ∀ p r l ns, sectionAt s p = some (r, l, ns) → (r :: heldAt [] s p).Pairwise (· > ·) := by
  have key : ∀ (s : Sections) (pre : List ℕ) (outer : Option (List ℕ)) (held : List ℤ) (k : ℕ),
      ((∀ n ∈ iter pre outer held k s, n.nested.nestingOrdered n.res = true) ∧
        (∀ i r l ns, sectionAt s [i] = some (r, l, ns) → (r :: held).Pairwise (· > ·))) ↔
      ∀ p r l ns, sectionAt s p = some (r, l, ns) → (r :: heldAt held s p).Pairwise (· > ·) := by
    intro s
    induction s with
    | nil => intro pre outer held k; simp [iter, sectionAt]
    | cons r l ns rest ih1 ih2 =>
      intro pre outer held k
      constructor
      · rintro ⟨h1, h2⟩ p r' l' ns' hs
        simp only [iter, List.mem_cons, List.mem_append] at h1
        match p, hs with
        | [], hs => simp [sectionAt] at hs
        | [0], hs => exact h2 0 _ _ _ hs
        | 0 :: j :: p, hs =>
          refine (ih1 (pre ++ [k]) (some (pre ++ [k])) (r :: held) 0).1 ⟨fun n hn => h1 n (Or.inr (Or.inl hn)), ?_⟩ _ _ _ _ hs
          intro i r'' l'' ns'' hs'
          have hlt : r < r'' := (nestingOrdered_iff r ns).1 (h1 _ (Or.inl rfl)) i r'' l'' ns'' hs'
          have hr := h2 0 r l ns rfl
          rw [List.pairwise_cons]
          refine ⟨fun a ha => ?_, hr⟩
          rcases List.mem_cons.1 ha with rfl | ha
          · exact hlt
          · have := (List.pairwise_cons.1 hr).1 a ha
            show a < r''
            have : a < r := this
            omega
        | (i + 1) :: p, hs =>
          exact (ih2 pre outer held (k + 1)).1 ⟨fun n hn => h1 n (Or.inr (Or.inr hn)),
            fun i r' l' ns' hs' => h2 (i + 1) r' l' ns' hs'⟩ _ _ _ _ hs
      · intro h
        have hr : (r :: held).Pairwise (· > ·) := h [0] r l ns rfl
        refine ⟨fun n hn => ?_, fun i r' l' ns' hs => ?_⟩
        · simp only [iter, List.mem_cons, List.mem_append] at hn
          rcases hn with rfl | hn | hn
          · simp only
            rw [nestingOrdered_iff]
            intro i r' l' ns' hs
            have hh := h (0 :: [i]) r' l' ns' hs
            have : heldAt held (Sections.cons r l ns rest) (0 :: [i]) = r :: held := by
              show heldAt (r :: held) ns [i] = r :: held
              clear hs hh h hr ih1 ih2
              induction ns generalizing i with
              | nil => rfl
              | cons _ _ _ rest _ ih =>
                cases i with
                | zero => rfl
                | succ i => exact ih i
            rw [this] at hh
            exact (List.pairwise_cons.1 hh).1 r (by simp)
          · refine ((ih1 (pre ++ [k]) (some (pre ++ [k])) (r :: held) 0).2 ?_).1 n hn
            intro p r' l' ns' hs
            cases p with
            | nil => cases ns <;> simp [sectionAt] at hs
            | cons j p => exact h (0 :: j :: p) r' l' ns' hs
          · refine ((ih2 pre outer held (k + 1)).2 ?_).1 n hn
            intro p r' l' ns' hs
            cases p with
            | nil => cases rest <;> simp [sectionAt] at hs
            | cons j p => exact h ((j + 1) :: p) r' l' ns' hs
        · cases i with
          | zero => exact h [0] r' l' ns' hs
          | succ i =>
            refine ((ih2 pre outer held (k + 1)).2 ?_).2 i r' l' ns' hs
            intro p r' l' ns' hs
            cases p with
            | nil => cases rest <;> simp [sectionAt] at hs
            | cons j p => exact h ((j + 1) :: p) r' l' ns' hs
  rw [← key s [] none [] 0]
  unfold allNestingWellOrdered Sections.all
  rw [List.all_eq_true]
  simp

/-- No section requests a resource that an enclosing section holds. -/
def NoReentry (s : Sections) : Prop :=
  ∀ p r l ns, sectionAt s p = some (r, l, ns) → r ∉ heldAt [] s p

/-- **C36**, nesting order excludes re-entrance. -/
theorem C36_ordered_no_reentry (s : Sections) (h : s.allNestingWellOrdered = true) : NoReentry s := by
  intro p r l ns hs hm
  have := (List.pairwise_cons.1 ((C36_well_ordered s).1 h p r l ns hs)).1 r hm
  omega

/-! ### Construction -/

/-- Recursive form of `NoReentry`. -/
def NoRe (held : List ℤ) : Sections → Prop
  | .nil => True
  | .cons r _ ns rest => r ∉ held ∧ NoRe (r :: held) ns ∧ NoRe held rest

theorem noRe_iff (s : Sections) : ∀ held, NoRe held s ↔
    ∀ p r l ns, sectionAt s p = some (r, l, ns) → r ∉ heldAt held s p := by
  induction s with
  | nil => intro held; simp [NoRe, sectionAt]
  | cons r l ns rest ih1 ih2 =>
    intro held
    simp only [NoRe, ih1, ih2]
    constructor
    · rintro ⟨h0, h1, h2⟩ p r' l' ns' hs
      match p, hs with
      | [], hs => simp [sectionAt] at hs
      | [0], hs =>
        simp only [sectionAt, Option.some.injEq, Prod.mk.injEq] at hs
        rw [← hs.1]; exact h0
      | 0 :: j :: p, hs => exact h1 _ _ _ _ hs
      | (i + 1) :: p, hs => exact h2 _ _ _ _ hs
    · intro h
      refine ⟨h [0] r l ns rfl, fun p r' l' ns' hs => ?_, fun p r' l' ns' hs => ?_⟩
      · cases p with
        | nil => cases ns <;> simp [sectionAt] at hs
        | cons j p => exact h (0 :: j :: p) r' l' ns' hs
      · cases p with
        | nil => cases rest <;> simp [sectionAt] at hs
        | cons j p => exact h ((j + 1) :: p) r' l' ns' hs

theorem isReentrant_iff (res : ℤ) (held : List ℤ) : isReentrant res held = true ↔ res ∈ held := by
  induction held with
  | nil => simp [isReentrant]
  | cons o held ih =>
    unfold isReentrant
    by_cases h : o = res
    · simp [h]
    · rw [if_neg h, ih]; simp [Ne.symm h]

theorem noRe_append (held : List ℤ) (s s' : Sections) :
    NoRe held (s.append s') ↔ NoRe held s ∧ NoRe held s' := by
  induction s with
  | nil => simp [append, NoRe]
  | cons r l ns rest _ ih => simp only [append, NoRe, ih, and_assoc]

theorem noRe_attach (s : Sections) : ∀ (held : List ℤ) (place : List ℕ) (r : ℤ) (l : ℚ) (s' : Sections),
    NoRe held s → attach held s place r l .nil = some s' → NoRe held s' := by
  induction s with
  | nil =>
    intro held place r l s' h hs
    cases place with
    | nil =>
      unfold attach at hs
      by_cases hc : isReentrant r held = true
      · rw [if_pos hc] at hs; simp at hs
      · rw [if_neg hc] at hs
        simp only [Option.some.injEq] at hs
        rw [← hs, noRe_append]
        rw [isReentrant_iff] at hc
        exact ⟨h, hc, trivial, trivial⟩
    | cons i p => simp [attach] at hs
  | cons r' l' ns rest ih1 ih2 =>
    intro held place r l s' h hs
    match place with
    | [] =>
      unfold attach at hs
      by_cases hc : isReentrant r held = true
      · rw [if_pos hc] at hs; simp at hs
      · rw [if_neg hc] at hs
        simp only [Option.some.injEq] at hs
        rw [← hs, noRe_append]
        rw [isReentrant_iff] at hc
        exact ⟨h, hc, trivial, trivial⟩
    | 0 :: p =>
      unfold attach at hs
      obtain ⟨n, hn, rfl⟩ := Option.map_eq_some_iff.1 hs
      exact ⟨h.1, ih1 _ _ _ _ _ h.2.1 hn, h.2.2⟩
    | (i + 1) :: p =>
      unfold attach at hs
      obtain ⟨n, hn, rfl⟩ := Option.map_eq_some_iff.1 hs
      exact ⟨h.1, h.2.1, ih2 _ _ _ _ _ h.2.2 hn⟩

/-- The forests obtained with `add_outermost` and `add_nested` of
`OutermostCriticalSections`, in any order. -/
inductive Built : Sections → Prop where
  | empty : Built .nil
  | step {s s' place r l} : Built s → s.add place r l = some s' → Built s'

/-- **C36**, construction: no history of calls to `add_outermost` and `add_nested` makes a
section re-entrant. -/
theorem C36_built_no_reentry {s : Sections} (h : Built s) : NoReentry s := by
  have : NoRe [] s := by
    induction h with
    | empty => trivial
    | step _ hs ih => exact noRe_attach _ _ _ _ _ _ ih hs
  exact (noRe_iff s []).1 this

/-- The assertion alone does not exclude re-entrance: `CriticalSection.add_nested` only
checks the section itself, not the sections already nested in it. -/
theorem C36_subtree_violated : ¬ ∀ (s s' : Sections) (place : List ℕ) (r : ℤ) (l : ℚ) (sub : Sections),
    NoReentry s → NoReentry (.cons r l sub .nil) → attach [] s place r l sub = some s' → NoReentry s' := by
  intro h
  have h1 : NoReentry (.cons 1 1 .nil .nil) := (noRe_iff _ []).1 (by simp [NoRe])
  have h2 : NoReentry (.cons 2 1 (.cons 1 1 .nil .nil) .nil) := (noRe_iff _ []).1 (by simp [NoRe])
  have := (noRe_iff _ []).2 (h _ _ [0] 2 1 (.cons 1 1 .nil .nil) h1 h2 rfl)
  simp [NoRe, append] at this

/-- Non-vacuity: a forest with three levels. -/
def exampleSections : Sections :=
  .cons 1 10 (.cons 2 5 (.cons 3 2 .nil .nil) (.cons 4 1 .nil .nil)) (.cons 5 7 (.cons 6 1 .nil .nil) .nil)

example : exampleSections.allFlat =
    some [(1, 10, -1), (2, 5, 0), (3, 2, 1), (4, 1, 0), (5, 7, -1), (6, 1, 4)] := by decide +kernel
example : exampleSections.allNestingWellOrdered = true ∧ exampleSections.top = [(1, 18), (5, 8)] := by
  decide +kernel
example : Built (.cons 1 10 (.cons 2 5 .nil .nil) (.cons 3 1 .nil .nil)) :=
  .step (place := []) (r := 3) (l := 1) (.step (place := [0]) (r := 2) (l := 5)
    (.step (place := []) (r := 1) (l := 10) .empty rfl) rfl) rfl

/-! ### Group locks -/

/-- The task requests `inner` directly within a section for `outer`. -/
def Nests (tasks : List Sections) (outer inner : ℤ) : Prop :=
  ∃ s ∈ tasks, ∃ p l ns i l' ns', sectionAt s p = some (outer, l, ns) ∧
    sectionAt ns [i] = some (inner, l', ns')

/-- The resource is requested by some task. -/
def Used (tasks : List Sections) (res : ℤ) : Prop :=
  ∃ s ∈ tasks, ∃ p l ns, sectionAt s p = some (res, l, ns)

/-- What holds of `groups` after visiting some sections. -/
structure GroupInv (g : Groups) (U : ℤ → Prop) (E : ℤ → ℤ → Prop) : Prop where
  dom : ∀ r, (g.ref r).isSome ↔ U r
  heap : ∀ r x, g.ref r = some x → ∀ s, s ∈ g.heap x ↔ g.ref s = some x
  next : ∀ r x, g.ref r = some x → x < g.next
  eqv : ∀ r s, U r → U s → (g.ref r = g.ref s ↔ Relation.EqvGen E r s)
  edges : ∀ r s, E r s → U r ∧ U s

theorem EqvGen_mono' {E E' : ℤ → ℤ → Prop} (h : ∀ a b, E a b → E' a b) {a b : ℤ}
    (hab : Relation.EqvGen E a b) : Relation.EqvGen E' a b := by
  induction hab with
  | rel a b h' => exact .rel _ _ (h _ _ h')
  | refl a => exact .refl _
  | symm a b _ ih => exact .symm _ _ ih
  | trans a b c _ _ ih1 ih2 => exact .trans _ _ _ ih1 ih2

/-- Adding a new resource. -/
theorem GroupInv.addKey {g : Groups} {U : ℤ → Prop} {E : ℤ → ℤ → Prop} (h : GroupInv g U E) (x : ℤ)
    (hx : g.ref x = none) :
    GroupInv { ref := Function.update g.ref x (some g.next),
               heap := Function.update g.heap g.next {x}, next := g.next + 1 }
      (fun r => r = x ∨ U r) E := by
  have hxU : ¬ U x := by rw [← h.dom, hx]; simp
  constructor
  · intro r
    simp only
    by_cases hr : r = x
    · subst hr; simp
    · rw [Function.update_of_ne hr, h.dom]; simp [hr]
  · intro r y hry s
    simp only at hry ⊢
    by_cases hy : y = g.next
    · subst hy
      rw [Function.update_self, Finset.mem_singleton]
      by_cases hs : s = x
      · subst hs; simp
      · rw [Function.update_of_ne hs]
        simp only [hs, false_iff]
        intro hc
        exact absurd (h.next _ _ hc) (lt_irrefl _)
    · rw [Function.update_of_ne hy]
      by_cases hr : r = x
      · subst hr; simp at hry; exact absurd hry.symm hy
      · rw [Function.update_of_ne hr] at hry
        rw [h.heap r y hry]
        by_cases hs : s = x
        · subst hs
          rw [Function.update_self, hx]
          simp [Ne.symm hy]
        · rw [Function.update_of_ne hs]
  · intro r y hry
    simp only at hry ⊢
    by_cases hr : r = x
    · subst hr; simp at hry; omega
    · rw [Function.update_of_ne hr] at hry
      have := h.next r y hry; omega
  · intro r s hr hs
    simp only
    have hiso : ∀ a, U a → (¬ Relation.EqvGen E x a ∧ ¬ Relation.EqvGen E a x) := by
      intro a ha
      have key : ∀ a b, Relation.EqvGen E a b → (U a ↔ U b) := by
        intro a b hab
        induction hab with
        | rel a b h' => exact ⟨fun _ => (h.edges _ _ h').2, fun _ => (h.edges _ _ h').1⟩
        | refl a => rfl
        | symm a b _ ih => exact ih.symm
        | trans a b c _ _ ih1 ih2 => exact ih1.trans ih2
      exact ⟨fun hc => hxU ((key _ _ hc).2 ha), fun hc => hxU ((key _ _ hc).1 ha)⟩
    by_cases hrx : r = x <;> by_cases hsx : s = x
    · subst hrx hsx; simp [Relation.EqvGen.refl]
    · subst hrx
      have hsU := hs.resolve_left hsx
      rw [Function.update_self, Function.update_of_ne hsx]
      simp only [(hiso s hsU).1, iff_false]
      intro hc
      exact absurd (h.next _ _ hc.symm) (lt_irrefl _)
    · subst hsx
      have hrU := hr.resolve_left hrx
      rw [Function.update_self, Function.update_of_ne hrx]
      simp only [(hiso r hrU).2, iff_false]
      intro hc
      exact absurd (h.next _ _ hc) (lt_irrefl _)
    · rw [Function.update_of_ne hrx, Function.update_of_ne hsx]
      exact h.eqv r s (hr.resolve_left hrx) (hs.resolve_left hsx)
  · intro r s hrs
    have := h.edges r s hrs
    exact ⟨Or.inr this.1, Or.inr this.2⟩

/-- Merging two groups. -/
theorem GroupInv.merge {g : Groups} {U : ℤ → Prop} {E : ℤ → ℤ → Prop} (h : GroupInv g U E) {o x : ℤ}
    {r1 r2 : ℕ} (ho : g.ref o = some r1) (hx : g.ref x = some r2) (hne : r1 ≠ r2) :
    GroupInv { g with heap := Function.update g.heap r1 (g.heap r1 ∪ g.heap r2),
                      ref := fun s => if s ∈ g.heap r2 then some r1 else g.ref s }
      U (fun a c => E a c ∨ (a = o ∧ c = x)) := by
  have hUo : U o := (h.dom o).1 (by rw [ho]; rfl)
  have hUx : U x := (h.dom x).1 (by rw [hx]; rfl)
  have h2 := h.heap x r2 hx
  have h1 := h.heap o r1 ho
  constructor
  · intro r
    simp only
    split_ifs with hr
    · simp only [Option.isSome_some, true_iff]
      rw [← h.dom, (h2 r).1 hr]; rfl
    · exact h.dom r
  · intro r y hry s
    simp only at hry ⊢
    have hy2 : y ≠ r2 := by
      split_ifs at hry with hr
      · simp only [Option.some.injEq] at hry; omega
      · intro hc; subst hc; exact hr ((h2 r).2 hry)
    by_cases hy1 : y = r1
    · subst hy1
      rw [Function.update_self, Finset.mem_union, h1]
      split_ifs with hs
      · simp [hs]
      · simp [hs]
    · rw [Function.update_of_ne hy1]
      split_ifs at hry with hr
      · simp only [Option.some.injEq] at hry; exact absurd hry.symm hy1
      · rw [h.heap r y hry]
        split_ifs with hs
        · rw [h2] at hs
          rw [hs]
          simp [Ne.symm hy2, Ne.symm hy1]
        · rfl
  · intro r y hry
    simp only at hry ⊢
    split_ifs at hry with hr
    · simp only [Option.some.injEq] at hry
      subst hry; exact h.next o _ ho
    · exact h.next r y hry
  · intro r s hr hs
    simp only
    have hold : ∀ a c, Relation.EqvGen E a c →
        Relation.EqvGen (fun a c => E a c ∨ (a = o ∧ c = x)) a c :=
      fun a c hac => EqvGen_mono' (fun _ _ => Or.inl) hac
    have hnew : Relation.EqvGen (fun a c => E a c ∨ (a = o ∧ c = x)) o x := .rel _ _ (Or.inr ⟨rfl, rfl⟩)
    constructor
    · intro heq
      have h2' : ∀ a, U a → g.ref a = some r2 → Relation.EqvGen E a x := fun a ha hh =>
        (h.eqv a x ha hUx).1 (by rw [hh, hx])
      have h1' : ∀ a, U a → g.ref a = some r1 → Relation.EqvGen E a o := fun a ha hh =>
        (h.eqv a o ha hUo).1 (by rw [hh, ho])
      by_cases hr2 : g.ref r = some r2 <;> by_cases hs2 : g.ref s = some r2
      · exact hold _ _ ((h.eqv r s hr hs).1 (by rw [hr2, hs2]))
      · rw [if_pos ((h2 r).2 hr2), if_neg (fun hc => hs2 ((h2 s).1 hc))] at heq
        exact .trans _ _ _ (hold _ _ (h2' r hr hr2))
          (.trans _ _ _ (.symm _ _ hnew) (.symm _ _ (hold _ _ (h1' s hs heq.symm))))
      · rw [if_neg (fun hc => hr2 ((h2 r).1 hc)), if_pos ((h2 s).2 hs2)] at heq
        exact .trans _ _ _ (hold _ _ (h1' r hr heq)) (.trans _ _ _ hnew
          (.symm _ _ (hold _ _ (h2' s hs hs2))))
      · rw [if_neg (fun hc => hr2 ((h2 r).1 hc)), if_neg (fun hc => hs2 ((h2 s).1 hc))] at heq
        exact hold _ _ ((h.eqv r s hr hs).1 heq)
    · intro hrs
      have key : ∀ a c, Relation.EqvGen (fun a c => E a c ∨ (a = o ∧ c = x)) a c →
          (if a ∈ g.heap r2 then some r1 else g.ref a) = (if c ∈ g.heap r2 then some r1 else g.ref c) := by
        intro a c hac
        induction hac with
        | rel a c h' =>
          rcases h' with h' | ⟨rfl, rfl⟩
          · have hu := h.edges a c h'
            have := (h.eqv a c hu.1 hu.2).2 (.rel _ _ h')
            simp only [h2, this]
          · rw [if_pos ((h2 c).2 hx), if_neg, ho]
            rw [h2, ho]
            simp [hne]
        | refl a => rfl
        | symm a c _ ih => exact ih.symm
        | trans a b c _ _ ih1 ih2 => exact ih1.trans ih2
      exact key r s hrs
  · rintro r s (hrs | ⟨rfl, rfl⟩)
    · exact h.edges r s hrs
    · exact ⟨hUo, hUx⟩

/-- An edge inside a group changes nothing. -/
theorem GroupInv.addEdge {g : Groups} {U : ℤ → Prop} {E : ℤ → ℤ → Prop} (h : GroupInv g U E) {o x : ℤ}
    (ho : U o) (hx : U x) (heq : g.ref o = g.ref x) :
    GroupInv g U (fun a c => E a c ∨ (a = o ∧ c = x)) := by
  refine ⟨h.dom, h.heap, h.next, fun r s hr hs => ?_, ?_⟩
  · rw [h.eqv r s hr hs]
    constructor
    · exact EqvGen_mono' (fun _ _ => Or.inl)
    · intro hrs
      induction hrs with
      | rel a c h' =>
        rcases h' with h' | ⟨rfl, rfl⟩
        · exact .rel _ _ h'
        · exact (h.eqv _ _ ho hx).1 heq
      | refl a => exact .refl _
      | symm a c hab ih => exact .symm _ _ (ih hs hr)
      | trans a b c hab hbc ih1 ih2 =>
        have hb : U b := by
          by_contra hb
          -- every element related to `a` is used
          have key : ∀ a b, Relation.EqvGen (fun a c => E a c ∨ (a = o ∧ c = x)) a b → (U a ↔ U b) := by
            intro a b hab
            induction hab with
            | rel a b h' =>
              rcases h' with h' | ⟨rfl, rfl⟩
              · exact ⟨fun _ => (h.edges _ _ h').2, fun _ => (h.edges _ _ h').1⟩
              · exact ⟨fun _ => hx, fun _ => ho⟩
            | refl a => rfl
            | symm a b _ ih => exact ih.symm
            | trans a b c _ _ ih1 ih2 => exact ih1.trans ih2
          exact hb ((key a b hab).1 hr)
        exact .trans _ _ _ (ih1 hr hb) (ih2 hb hs)
  · rintro r s (hrs | ⟨rfl, rfl⟩)
    · exact h.edges r s hrs
    · exact ⟨ho, hx⟩

/-- One round. -/
theorem GroupInv.visit {g : Groups} {U : ℤ → Prop} {E : ℤ → ℤ → Prop} (h : GroupInv g U E) (n : Node)
    (hout : ∀ o rest, n.held = o :: rest → U o) :
    ∃ g', g.visit n = some g' ∧ GroupInv g' (fun r => r = n.res ∨ U r)
      (fun a c => E a c ∨ (n.held.head? = some a ∧ c = n.res)) := by
  -- the state after the first `if`
  have h0 : ∃ g1 : Groups, GroupInv g1 (fun r => r = n.res ∨ U r) E ∧
      (if (g.ref n.res).isNone then
        { ref := Function.update g.ref n.res (some g.next),
          heap := Function.update g.heap g.next {n.res}, next := g.next + 1 : Groups }
      else g) = g1 := by
    by_cases hx : g.ref n.res = none
    · refine ⟨_, h.addKey n.res hx, ?_⟩
      rw [if_pos (by rw [hx]; rfl)]
    · refine ⟨g, ?_, by rw [if_neg (by simpa using hx)]⟩
      have hU : U n.res := (h.dom _).1 (Option.isSome_iff_ne_none.2 hx)
      have : (fun r => r = n.res ∨ U r) = U := by
        funext r; apply propext
        exact ⟨fun hr => hr.elim (fun he => he ▸ hU) id, Or.inr⟩
      rw [this]; exact h
  obtain ⟨g1, hg1, he⟩ := h0
  unfold Groups.visit
  rw [he]
  simp only
  cases hh : n.held with
  | nil =>
    refine ⟨g1, rfl, ?_⟩
    have : (fun a c => E a c ∨ (([] : List ℤ).head? = some a ∧ c = n.res)) = E := by
      funext a c; simp
    rw [this]; exact hg1
  | cons o rest =>
    have hUo := hout o rest hh
    obtain ⟨r1, hr1⟩ := Option.isSome_iff_exists.1 ((hg1.dom o).2 (Or.inr hUo))
    obtain ⟨r2, hr2⟩ := Option.isSome_iff_exists.1 ((hg1.dom n.res).2 (Or.inl rfl))
    have hE : (fun a c => E a c ∨ ((o :: rest).head? = some a ∧ c = n.res))
        = (fun a c => E a c ∨ (a = o ∧ c = n.res)) := by
      funext a c
      simp only [List.head?_cons, Option.some.injEq]
      rw [eq_comm (a := o)]
    rw [hE]
    simp only [hr1, hr2]
    by_cases hne : g1.heap r1 ≠ g1.heap r2
    · rw [if_pos hne]
      have h12 : r1 ≠ r2 := fun hc => hne (by rw [hc])
      refine ⟨_, rfl, ?_⟩
      rw [Function.update_of_ne h12.symm]
      exact hg1.merge hr1 hr2 h12
    · rw [if_neg hne]
      push Not at hne
      refine ⟨g1, rfl, hg1.addEdge (Or.inr hUo) (Or.inl rfl) ?_⟩
      have : o ∈ g1.heap r2 := by rw [← hne]; exact (hg1.heap o r1 hr1 o).2 hr1
      rw [(hg1.heap n.res r2 hr2 o).1 this, hr2]

/-- The whole loop. -/
theorem GroupInv.fold : ∀ (l : List Node) {g : Groups} {U : ℤ → Prop} {E : ℤ → ℤ → Prop},
    GroupInv g U E →
    (∀ A n B, l = A ++ n :: B → ∀ o rest, n.held = o :: rest → U o ∨ ∃ m ∈ A, m.res = o) →
    ∃ g', l.foldlM Groups.visit g = some g' ∧
      GroupInv g' (fun r => (∃ n ∈ l, n.res = r) ∨ U r)
        (fun a c => E a c ∨ ∃ n ∈ l, n.held.head? = some a ∧ c = n.res) := by
  intro l
  induction l with
  | nil =>
    intro g U E h _
    refine ⟨g, rfl, ?_⟩
    simpa using h
  | cons n l ih =>
    intro g U E h hout
    obtain ⟨g1, hg1, hi⟩ := h.visit n (fun o rest hh => by
      rcases hout [] n l rfl o rest hh with h' | ⟨m, hm, _⟩
      · exact h'
      · simp at hm)
    obtain ⟨g', hg', hi'⟩ := ih hi (fun A m B hl o rest hh => by
      rcases hout (n :: A) m B (by rw [hl]; rfl) o rest hh with h' | ⟨m', hm', he⟩
      · exact Or.inl (Or.inr h')
      · rcases List.mem_cons.1 hm' with rfl | hm'
        · exact Or.inl (Or.inl he.symm)
        · exact Or.inr ⟨m', hm', he⟩)
    refine ⟨g', by rw [List.foldlM_cons, hg1]; exact hg', ?_⟩
    have e1 : (fun r => (∃ m ∈ n :: l, m.res = r) ∨ U r)
        = (fun r => (∃ m ∈ l, m.res = r) ∨ r = n.res ∨ U r) := by
      funext r; apply propext
      simp only [List.mem_cons, exists_eq_or_imp]
      rw [eq_comm (a := n.res), or_assoc]
      exact or_left_comm
    have e2 : (fun a c => E a c ∨ ∃ m ∈ n :: l, m.held.head? = some a ∧ c = m.res)
        = (fun a c => (E a c ∨ (n.held.head? = some a ∧ c = n.res)) ∨
            ∃ m ∈ l, m.held.head? = some a ∧ c = m.res) := by
      funext a c; apply propext
      simp only [List.mem_cons, exists_eq_or_imp]
      tauto
    rw [e1, e2]
    exact hi'

/-- Direct nesting, seen from the inner section. -/
theorem heldAt_head (s : Sections) : ∀ (held : List ℤ) (p : List ℕ) (i : ℕ) (r : ℤ) (l : ℚ) (ns : Sections),
    sectionAt s p = some (r, l, ns) → ∀ v, sectionAt ns [i] = some v →
      sectionAt s (p ++ [i]) = some v ∧ (heldAt held s (p ++ [i])).head? = some r := by
  have hflat : ∀ (ns : Sections) (h : List ℤ) (i : ℕ), heldAt h ns [i] = h := by
    intro ns
    induction ns with
    | nil => intros; rfl
    | cons _ _ _ rest _ ih =>
      intro h i
      cases i with
      | zero => rfl
      | succ i => exact ih h i
  induction s with
  | nil => intro held p i r l ns h; simp [sectionAt] at h
  | cons r' l' ns' rest ih1 ih2 =>
    intro held p i r l ns h v hv
    match p, h with
    | [], h => simp [sectionAt] at h
    | [0], h =>
      simp only [sectionAt, Option.some.injEq, Prod.mk.injEq] at h
      obtain ⟨rfl, rfl, rfl⟩ := h
      refine ⟨hv, ?_⟩
      show (heldAt (r' :: held) ns' [i]).head? = some r'
      rw [hflat]; rfl
    | 0 :: j :: p, h => exact ih1 (r' :: held) (j :: p) i r l ns h v hv
    | (j + 1) :: p, h => exact ih2 held (j :: p) i r l ns h v hv

theorem heldAt_head_inv (s : Sections) : ∀ (held : List ℤ) (p : List ℕ) (v : ℤ × ℚ × Sections),
    sectionAt s p = some v → heldAt held s p ≠ held ∨ p.length ≠ 1 →
    ∃ q i r l ns, p = q ++ [i] ∧ sectionAt s q = some (r, l, ns) ∧ sectionAt ns [i] = some v ∧
      (heldAt held s p).head? = some r := by
  have hflat : ∀ (ns : Sections) (h : List ℤ) (i : ℕ), heldAt h ns [i] = h := by
    intro ns
    induction ns with
    | nil => intros; rfl
    | cons _ _ _ rest _ ih =>
      intro h i
      cases i with
      | zero => rfl
      | succ i => exact ih h i
  induction s with
  | nil => intro held p v h; simp [sectionAt] at h
  | cons r' l' ns' rest ih1 ih2 =>
    intro held p v h hne
    match p, h with
    | [], h => simp [sectionAt] at h
    | [0], h => simp [heldAt] at hne
    | 0 :: j :: p, h =>
      have h' : sectionAt ns' (j :: p) = some v := h
      cases p with
      | nil =>
        refine ⟨[0], j, r', l', ns', rfl, rfl, h', ?_⟩
        show (heldAt (r' :: held) ns' [j]).head? = some r'
        rw [hflat]; rfl
      | cons j' p =>
        obtain ⟨q, i, r, l, ns, e1, e2, e3, e4⟩ := ih1 (r' :: held) (j :: j' :: p) v h' (Or.inr (by simp))
        refine ⟨0 :: q, i, r, l, ns, by rw [e1]; rfl, ?_, e3, e4⟩
        cases q with
        | nil => cases ns' <;> simp [sectionAt] at e2
        | cons a q => exact e2
    | (j + 1) :: p, h =>
      have h' : sectionAt rest (j :: p) = some v := h
      obtain ⟨q, i, r, l, ns, e1, e2, e3, e4⟩ := ih2 held (j :: p) v h' (by
        rcases hne with hne | hne
        · left; exact hne
        · right; simpa using hne)
      cases q with
      | nil => cases rest <;> simp [sectionAt] at e2
      | cons a q =>
        simp only [List.cons_append, List.cons.injEq] at e1
        obtain ⟨rfl, rfl⟩ := e1
        exact ⟨(j + 1) :: q, i, r, l, ns, rfl, e2, e3, e4⟩

/-- The section a nested one is in comes earlier in the iteration. -/
theorem outer_visited (s : Sections) (A : List Node) (n : Node) (B : List Node)
    (h : s.all = A ++ n :: B) (o : ℤ) (rest : List ℤ) (hh : n.held = o :: rest) :
    ∃ m ∈ A, m.res = o := by
  have hmem : n ∈ s.all := by rw [h]; simp
  obtain ⟨p, h1, h2, h3, h4⟩ := (mem_all_iff n s).1 hmem
  obtain ⟨q, i, r, l, ns, e1, e2, e3, e4⟩ := heldAt_head_inv s [] p _ h1 (by left; rw [← h3, hh]; simp)
  rw [← h3, hh] at e4
  simp only [List.head?_cons, Option.some.injEq] at e4
  have hq : q ≠ [] := by rintro rfl; cases s <;> simp [sectionAt] at e2
  have hpl : p.length ≠ 1 := by
    rw [e1]
    have := List.length_pos_iff.2 hq
    simp; omega
  rw [if_neg hpl, e1, List.dropLast_concat] at h4
  rcases iter_outer_first s _ _ _ _ A n B h with hn | ⟨o', ho', hm⟩
  · rw [h4] at hn; simp at hn
  · rw [h4] at ho'
    simp only [Option.some.injEq] at ho'
    obtain ⟨m, hm, hmp⟩ := List.mem_map.1 hm
    refine ⟨m, hm, ?_⟩
    obtain ⟨p', g1, g2, _⟩ := (mem_all_iff m s).1 (by rw [h]; simp [hm])
    rw [← g2, hmp, ← ho', e2] at g1
    simp only [Option.some.injEq, Prod.mk.injEq] at g1
    rw [← g1.1, e4]

theorem flatMap_split {α β : Type} (f : α → List β) : ∀ (l : List α) (A : List β) (n : β) (B : List β),
    l.flatMap f = A ++ n :: B →
    ∃ s ∈ l, ∃ A' A'' B', f s = A'' ++ n :: B' ∧ A = A' ++ A'' := by
  intro l
  induction l with
  | nil => intro A n B h; simp at h
  | cons s l ih =>
    intro A n B h
    rw [List.flatMap_cons] at h
    rcases List.append_eq_append_iff.1 h with ⟨C, hC1, hC2⟩ | ⟨C, hC1, hC2⟩
    · obtain ⟨s', hs', A', A'', B', h1, h2⟩ := ih C n B hC2
      exact ⟨s', by simp [hs'], f s ++ A', A'', B', h1, by rw [hC1, h2, List.append_assoc]⟩
    · cases C with
      | nil =>
        rw [List.append_nil] at hC1
        rw [List.nil_append] at hC2
        obtain ⟨s', hs', A', A'', B', h1, h2⟩ := ih [] n B hC2.symm
        exact ⟨s', by simp [hs'], f s ++ A', A'', B', h1, by rw [← hC1, List.append_assoc, ← h2]; simp⟩
      | cons c C =>
        simp only [List.cons_append, List.cons.injEq] at hC2
        obtain ⟨rfl, _⟩ := hC2
        exact ⟨s, by simp, [], A, C, hC1, rfl⟩

/-- **C35**: `identify_group_locks` ends without an exception, its result has an entry
for exactly the resources requested by some task, and the entry of `r` is the set of the
resources connected with `r` by the least equivalence relation that contains all pairs of
directly nested requests. -/
theorem C35_groups (tasks : List Sections) :
    ∃ groups, identifyGroupLocks tasks = some groups ∧
      (∀ r, (groups r).isSome ↔ Used tasks r) ∧
      ∀ r S, groups r = some S → ∀ s, s ∈ S ↔ Relation.EqvGen (Nests tasks) r s := by
  have hinit : GroupInv ⟨fun _ => none, fun _ => ∅, 0⟩ (fun _ => False) (fun _ _ => False) :=
    ⟨by simp, by simp, by simp, by simp, by simp⟩
  obtain ⟨g, hg, hi⟩ := GroupInv.fold (tasks.flatMap Sections.all) hinit (fun A n B hl o rest hh => by
    obtain ⟨s, hs, A', A'', B', h1, h2⟩ := flatMap_split _ _ _ _ _ hl
    obtain ⟨m, hm, he⟩ := outer_visited s A'' n B' h1 o rest hh
    exact Or.inr ⟨m, by rw [h2]; simp [hm], he⟩)
  have hU : (fun r => (∃ n ∈ tasks.flatMap Sections.all, n.res = r) ∨ False) = Used tasks := by
    funext r; apply propext
    simp only [or_false, List.mem_flatMap]
    constructor
    · rintro ⟨n, ⟨s, hs, hn⟩, rfl⟩
      obtain ⟨p, h1, _⟩ := (mem_all_iff n s).1 hn
      exact ⟨s, hs, p, _, _, h1⟩
    · rintro ⟨s, hs, p, l, ns, h1⟩
      exact ⟨⟨p, r, l, ns, if p.length = 1 then none else some p.dropLast, heldAt [] s p⟩,
        ⟨s, hs, (mem_all_iff _ s).2 ⟨p, h1, rfl, rfl, rfl⟩⟩, rfl⟩
  have hE : (fun a c => False ∨ ∃ n ∈ tasks.flatMap Sections.all, n.held.head? = some a ∧ c = n.res)
      = Nests tasks := by
    funext a c; apply propext
    simp only [false_or, List.mem_flatMap]
    constructor
    · rintro ⟨n, ⟨s, hs, hn⟩, hh, rfl⟩
      obtain ⟨p, h1, h2, h3, h4⟩ := (mem_all_iff n s).1 hn
      rw [h3] at hh
      obtain ⟨q, i, r, l, ns, e1, e2, e3, e4⟩ := heldAt_head_inv s [] p _ h1 (by
        left; intro hc; rw [hc] at hh; simp at hh)
      rw [hh] at e4
      simp only [Option.some.injEq] at e4
      subst e4
      exact ⟨s, hs, q, l, ns, i, _, _, e2, e3⟩
    · rintro ⟨s, hs, p, l, ns, i, l', ns', h1, h2⟩
      obtain ⟨e1, e2⟩ := heldAt_head s [] p i _ _ _ h1 _ h2
      exact ⟨⟨p ++ [i], c, l', ns', if (p ++ [i]).length = 1 then none else some (p ++ [i]).dropLast,
        heldAt [] s (p ++ [i])⟩, ⟨s, hs, (mem_all_iff _ s).2 ⟨p ++ [i], e1, rfl, rfl, rfl⟩⟩, e2, rfl⟩
  rw [hU, hE] at hi
  refine ⟨_, by unfold identifyGroupLocks; rw [hg]; rfl, fun r => ?_, fun r S hr s => ?_⟩
  · simp only [Option.isSome_map]
    exact hi.dom r
  · simp only [Option.map_eq_some_iff] at hr
    obtain ⟨x, hx, rfl⟩ := hr
    have hUr : Used tasks r := (hi.dom r).1 (by rw [hx]; rfl)
    have key : ∀ a b, Relation.EqvGen (Nests tasks) a b → (Used tasks a ↔ Used tasks b) := by
      intro a b hab
      induction hab with
      | rel a b h' => exact ⟨fun _ => (hi.edges _ _ h').2, fun _ => (hi.edges _ _ h').1⟩
      | refl a => rfl
      | symm a b _ ih => exact ih.symm
      | trans a b c _ _ ih1 ih2 => exact ih1.trans ih2
    rw [hi.heap r x hx]
    constructor
    · intro hs
      have hUs : Used tasks s := (hi.dom s).1 (by rw [hs]; rfl)
      exact (hi.eqv r s hUr hUs).1 (by rw [hx, hs])
    · intro hrs
      rw [← hx]
      exact ((hi.eqv r s hUr ((key _ _ hrs).1 hUr)).2 hrs).symm

/-- The entries as a list, to evaluate examples. -/
def groupsOn (groups : Option (ℤ → Option (Finset ℤ))) (l : List ℤ) : Option (List (Option (Finset ℤ))) :=
  groups.map (fun g => l.map g)

/-- Non-vacuity: two tasks whose nesting joins resources only transitively. -/
example : groupsOn (identifyGroupLocks
    [.cons 1 1 (.cons 2 1 .nil .nil) .nil, .cons 4 1 .nil (.cons 3 1 (.cons 2 1 .nil .nil) .nil)])
    [1, 2, 3, 4, 5] = some [some {1, 2, 3}, some {1, 2, 3}, some {1, 2, 3}, some {4}, none] := by
  decide +kernel

/-! ### The flat model of group locks -/

/-- The outermost sections of a task that fall into the group with the given set. -/
def inGroup (groups : ℤ → Option (Finset ℤ)) (gid : ℤ) (s : List (ℤ × ℚ)) : List ℚ :=
  (s.filter (fun x => decide ((groups x.1).map Finset.min = some (gid : WithTop ℤ)))).map Prod.snd

theorem groupLoop_spec (groups : ℤ → Option (Finset ℤ)) : ∀ (l : List (ℤ × ℚ)) (m : Reqs),
    (∀ x ∈ l, ∃ g, groups x.1 = some g ∧ g.Nonempty) →
    ∃ m', groupLoop groups m l = some m' ∧ ∀ gid,
      (m'.get gid).writes = (m.get gid).writes + (inGroup groups gid l).length ∧
      (m'.get gid).writeLength = (inGroup groups gid l).foldl max (m.get gid).writeLength ∧
      (m'.get gid).reads = (m.get gid).reads := by
  intro l
  induction l with
  | nil => intro m _; exact ⟨m, rfl, fun gid => by simp [inGroup]⟩
  | cons x l ih =>
    intro m h
    obtain ⟨res, len⟩ := x
    obtain ⟨g, hg, hne⟩ := h (res, len) (by simp)
    simp only at hg
    obtain ⟨gid0, hmin⟩ := Finset.min_of_nonempty hne
    obtain ⟨m', hm', hspec⟩ := ih (Function.update m gid0 (some ((m.get gid0).addRequest len)))
      (fun y hy => h y (by simp [hy]))
    refine ⟨m', ?_, fun gid => ?_⟩
    · unfold groupLoop
      simp only [hg, hmin]
      exact hm'
    · obtain ⟨h1, h2, h3⟩ := hspec gid
      by_cases hgid : gid = gid0
      · subst hgid
        have hget : Reqs.get (Function.update m gid (some ((m.get gid).addRequest len))) gid
            = (m.get gid).addRequest len := by unfold Reqs.get; rw [Function.update_self]
        have hin : inGroup groups gid ((res, len) :: l) = len :: inGroup groups gid l := by
          unfold inGroup; rw [List.filter_cons_of_pos (by simp [hg, hmin]), List.map_cons]
        rw [hget] at h1 h2 h3
        rw [h1, h2, h3, hin]
        refine ⟨?_, rfl, rfl⟩
        simp only [Req.addRequest, Bool.false_eq_true, if_false, List.length_cons]
        omega
      · have hget : Reqs.get (Function.update m gid0 (some ((m.get gid0).addRequest len))) gid
            = m.get gid := by unfold Reqs.get; rw [Function.update_of_ne hgid]
        have hin : inGroup groups gid ((res, len) :: l) = inGroup groups gid l := by
          unfold inGroup
          rw [List.filter_cons_of_neg]
          simp only [hg, hmin, Option.map_some, Option.some.injEq, decide_eq_true_eq]
          intro hc
          exact hgid (WithTop.coe_injective hc).symm
        rw [hget] at h1 h2 h3
        rw [h1, h2, h3, hin]
        exact ⟨rfl, rfl, rfl⟩

theorem foldl_max_spec (l : List ℚ) : ∀ a : ℚ, a ≤ l.foldl max a ∧ (∀ x ∈ l, x ≤ l.foldl max a) ∧
    (l.foldl max a = a ∨ l.foldl max a ∈ l) := by
  induction l with
  | nil => intro a; simp
  | cons y l ih =>
    intro a
    obtain ⟨h1, h2, h3⟩ := ih (max a y)
    rw [List.foldl_cons]
    refine ⟨(le_max_left _ _).trans h1, fun x hx => ?_, ?_⟩
    · rcases List.mem_cons.1 hx with rfl | hx
      · exact (le_max_right _ _).trans h1
      · exact h2 x hx
    · rcases h3 with h3 | h3
      · rw [h3]
        rcases max_choice a y with h | h <;> rw [h]
        · exact Or.inl rfl
        · exact Or.inr (by simp)
      · exact Or.inr (by simp [h3])

/-- **C35**, resulting model: after `convert_to_group_locks` every task has, for the group
of a used resource `r`, under the least id in that group, as many write requests as it has
outermost sections for resources of the group, no read requests, and as length a bound on
their total lengths, which is attained unless there is none. -/
theorem C35_model (tasks : List Sections) :
    ∃ models, convertToGroupLocks tasks = some models ∧ models.length = tasks.length ∧
      ∀ i (hi : i < tasks.length) (hi' : i < models.length) (r gid : ℤ), Used tasks r →
        Relation.EqvGen (Nests tasks) r gid → (∀ s, Relation.EqvGen (Nests tasks) r s → gid ≤ s) →
        ∃ l : List (ℤ × ℚ), l.Sublist tasks[i].top ∧
          (∀ x ∈ tasks[i].top, x ∈ l ↔ Relation.EqvGen (Nests tasks) r x.1) ∧
          (models[i].get gid).writes = l.length ∧ (models[i].get gid).reads = 0 ∧
          0 ≤ (models[i].get gid).writeLength ∧
          (∀ x ∈ l, x.2 ≤ (models[i].get gid).writeLength) ∧
          ((models[i].get gid).writeLength = 0 ∨ ∃ x ∈ l, x.2 = (models[i].get gid).writeLength) := by
  obtain ⟨groups, hg, hdom, hset⟩ := C35_groups tasks
  have htop : ∀ s : Sections, ∀ x ∈ s.top, ∃ i l ns, sectionAt s [i] = some (x.1, l, ns) := by
    intro s
    induction s with
    | nil => intro x hx; simp [top] at hx
    | cons r l ns rest _ ih =>
      intro x hx
      rcases List.mem_cons.1 hx with rfl | hx
      · exact ⟨0, l, ns, rfl⟩
      · obtain ⟨i, l', ns', h⟩ := ih x hx
        exact ⟨i + 1, l', ns', h⟩
  have hused : ∀ s ∈ tasks, ∀ x ∈ s.top, Used tasks x.1 := by
    intro s hs x hx
    obtain ⟨i, l, ns, h⟩ := htop s x hx
    exact ⟨s, hs, [i], l, ns, h⟩
  have hmod : ∀ s ∈ tasks, ∃ m, groupLockModel groups s = some m ∧ ∀ gid,
      (m.get gid).writes = (inGroup groups gid s.top).length ∧
      (m.get gid).writeLength = (inGroup groups gid s.top).foldl max 0 ∧ (m.get gid).reads = 0 := by
    intro s hs
    obtain ⟨m, hm, hspec⟩ := groupLoop_spec groups s.top (fun _ => none) (fun x hx => by
      obtain ⟨S, hS⟩ := Option.isSome_iff_exists.1 ((hdom x.1).2 (hused s hs x hx))
      exact ⟨S, hS, x.1, (hset x.1 S hS x.1).2 (.refl _)⟩)
    refine ⟨m, hm, fun gid => ?_⟩
    obtain ⟨h1, h2, h3⟩ := hspec gid
    exact ⟨by rw [h1]; simp [Reqs.get], by rw [h2]; simp [Reqs.get], by rw [h3]; simp [Reqs.get]⟩
  have hmap : ∀ l : List Sections, (∀ s ∈ l, s ∈ tasks) → ∃ ms, l.mapM (groupLockModel groups) = some ms ∧
      ms.length = l.length ∧ ∀ i (hi : i < l.length) (hi' : i < ms.length),
        groupLockModel groups l[i] = some ms[i] := by
    intro l
    induction l with
    | nil => intro _; exact ⟨[], rfl, rfl, fun i hi => by simp at hi⟩
    | cons s l ih =>
      intro hl
      obtain ⟨ms, h1, h2, h3⟩ := ih (fun x hx => hl x (by simp [hx]))
      obtain ⟨m, hm, _⟩ := hmod s (hl s (by simp))
      refine ⟨m :: ms, by rw [List.mapM_cons, hm, h1]; rfl, by simp [h2], fun i hi hi' => ?_⟩
      cases i with
      | zero => exact hm
      | succ i => exact h3 i (by simpa using hi) (by simpa using hi')
  obtain ⟨ms, h1, h2, h3⟩ := hmap tasks (fun _ h => h)
  refine ⟨ms, by unfold convertToGroupLocks; rw [hg]; exact h1, h2, ?_⟩
  intro i hi hi' r gid hr hgid hleast
  have hmem : tasks[i] ∈ tasks := List.getElem_mem hi
  obtain ⟨m, hm, hspec⟩ := hmod _ hmem
  rw [h3 i hi hi'] at hm
  simp only [Option.some.injEq] at hm
  rw [hm]
  obtain ⟨s1, s2, s3⟩ := hspec gid
  have hsame : ∀ x ∈ tasks[i].top,
      ((groups x.1).map Finset.min = some (gid : WithTop ℤ) ↔ Relation.EqvGen (Nests tasks) r x.1) := by
    intro x hx
    obtain ⟨S, hS⟩ := Option.isSome_iff_exists.1 ((hdom x.1).2 (hused _ hmem x hx))
    rw [hS, Option.map_some, Option.some.injEq]
    constructor
    · intro he
      have : gid ∈ S := Finset.mem_of_min he
      exact .trans _ _ _ hgid (.symm _ _ ((hset _ _ hS gid).1 this))
    · intro he
      apply le_antisymm
      · exact Finset.min_le ((hset _ _ hS gid).2 (.trans _ _ _ (.symm _ _ he) hgid))
      · apply Finset.le_min
        intro a ha
        exact WithTop.coe_le_coe.2 (hleast a (.trans _ _ _ he ((hset _ _ hS a).1 ha)))
  refine ⟨tasks[i].top.filter (fun x => decide ((groups x.1).map Finset.min = some (gid : WithTop ℤ))),
    List.filter_sublist, fun x hx => ?_, ?_, s3, ?_, ?_, ?_⟩
  · rw [List.mem_filter, decide_eq_true_eq, hsame x hx]
    exact ⟨fun h => h.2, fun h => ⟨hx, h⟩⟩
  · rw [s1]; unfold inGroup; rw [List.length_map]
  · rw [s2]; exact (foldl_max_spec _ 0).1
  · intro x hx
    rw [s2]
    exact (foldl_max_spec _ 0).2.1 _ (List.mem_map_of_mem hx)
  · rw [s2]
    rcases (foldl_max_spec (inGroup groups gid tasks[i].top) 0).2.2 with h | h
    · left; exact h
    · right
      obtain ⟨x, hx, he⟩ := List.mem_map.1 h
      exact ⟨x, hx, he⟩

/-- Non-vacuity: two requests of the first task share a group lock. -/
example : (convertToGroupLocks [.cons 3 5 (.cons 2 1 .nil .nil) (.cons 2 9 .nil .nil), .cons 3 4 .nil .nil]).map
    (fun ms => ms.map (fun m => ((m.get 2).writes, (m.get 2).writeLength, (m.get 3).writes)))
    = some [(2, 9, 0), (1, 4, 0)] := by decide +kernel

end Verif.Res
