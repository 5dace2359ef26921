/-
C156: conversions of time units.  C157: `Storage` objects.
-/
import Verif.Spec.Util
import Mathlib.Tactic.Linarith
import Mathlib.Tactic.Ring
import Mathlib.Tactic.FieldSimp
import Mathlib.Order.Bounds.Basic
import Mathlib.Data.List.Induction

namespace Verif.Util
open Verif.Spec

/-- **C156**: the conversion that rounds up yields the least whole number of microseconds that is not shorter than the given
time, the one that rounds down the greatest that is not longer. -/
theorem C156_rounding (ms : ℚ) : IsLeast {z : ℤ | ms ≤ us2ms z} (ms2usRu ms) ∧ IsGreatest {z : ℤ | us2ms z ≤ ms} (ms2usRd ms) := by
  have h1 : ∀ z : ℚ, ms ≤ us2ms z ↔ ms * 1000 ≤ z := fun z => by
    unfold us2ms
    rw [le_div_iff₀ (by norm_num)]
  have h2 : ∀ z : ℚ, us2ms z ≤ ms ↔ z ≤ ms * 1000 := fun z => by
    unfold us2ms
    rw [div_le_iff₀ (by norm_num)]
  refine ⟨⟨?_, fun z hz => ?_⟩, ⟨?_, fun z hz => ?_⟩⟩
  · exact (h1 _).2 (Int.le_ceil _)
  · exact Int.ceil_le.2 ((h1 _).1 hz)
  · exact (h2 _).2 (Int.floor_le _)
  · exact Int.le_floor.2 ((h2 _).1 hz)

/-- **C156**: conversions to the other unit and back do not change the time; whole microseconds are not changed by rounding;
a second is 1000 milliseconds. -/
theorem C156_round_trip : (∀ t, us2ms (ms2us t) = t) ∧ (∀ t, ms2us (us2ms t) = t) ∧
    (∀ z : ℤ, ms2usRu (us2ms z) = z ∧ ms2usRd (us2ms z) = z) ∧ ∀ t, us2ms (sec2us t) = 1000 * t := by
  refine ⟨fun t => ?_, fun t => ?_, fun z => ?_, fun t => ?_⟩
  · unfold us2ms ms2us
    field_simp
  · unfold us2ms ms2us
    field_simp
  · have h : us2ms z * 1000 = z := by
      unfold us2ms
      field_simp
    unfold ms2usRu ms2usRd
    rw [h]
    exact ⟨Int.ceil_intCast z, Int.floor_intCast z⟩
  · unfold us2ms sec2us
    ring

/-- **C156**: if each of several times is rounded up, the sum is not shorter than the sum of the times; if each is rounded down,
it is not longer. -/
theorem C156_sums (l : List ℚ) : l.sum ≤ us2ms ((l.map ms2usRu).sum : ℤ) ∧ us2ms ((l.map ms2usRd).sum : ℤ) ≤ l.sum := by
  induction l with
  | nil => simp [us2ms]
  | cons a l ih =>
    have h := C156_rounding a
    have h1 : a ≤ us2ms (ms2usRu a) := h.1.1
    have h2 : us2ms (ms2usRd a) ≤ a := h.2.1
    have hadd : ∀ x y : ℤ, us2ms ((x + y : ℤ) : ℚ) = us2ms x + us2ms y := fun x y => by
      unfold us2ms
      push_cast
      ring
    rw [List.map_cons, List.map_cons, List.sum_cons, List.sum_cons, List.sum_cons, hadd, hadd]
    exact ⟨add_le_add h1 ih.1, add_le_add h2 ih.2⟩

/-- 1.2345 ms are at most 1235 and at least 1234 microseconds. -/
example : ms2usRu (12345 / 10000) = 1235 ∧ ms2usRd (12345 / 10000) = 1234 := by
  constructor <;> decide +kernel

variable {V : Type}

theorem apply_other (s : Store V) (o : Op V) {k : String} (h : opName o ≠ k) : (apply s o).1 k = s k := by
  cases o with
  | setAttr k' v => exact if_neg (Ne.symm h)
  | setItem k' v => exact if_neg (Ne.symm h)
  | delAttr k' =>
    simp only [apply, delAttr, delItem]
    split
    · exact if_neg (Ne.symm h)
    · rfl
  | delItem k' =>
    simp only [apply, delItem]
    split
    · exact if_neg (Ne.symm h)
    · rfl

theorem apply_same (s : Store V) (o : Op V) (v : V) :
    (apply s o).1 (opName o) = some v ↔ o = .setAttr (opName o) v ∨ o = .setItem (opName o) v := by
  cases o with
  | setAttr k' v' => simp [apply, setAttr, setItem, opName]
  | setItem k' v' => simp [apply, setItem, opName]
  | delAttr k' =>
    simp only [apply, delAttr, delItem, opName]
    split <;> simp_all
  | delItem k' =>
    simp only [apply, delItem, opName]
    split <;> simp_all

theorem after_iff (h : List (Op V)) (k : String) (v : V) : after h k = some v ↔ LastWritten h k v := by
  induction h using List.reverseRecOn with
  | nil =>
    constructor
    · intro h; simp [after] at h
    · rintro ⟨a, w, b, h, -⟩; simp at h
  | append_singleton h o ih =>
    have e : after (h ++ [o]) = (apply (after h) o).1 := by
      simp [after, List.foldl_append]
    rw [e]
    by_cases hk : opName o = k
    · subst hk
      rw [apply_same]
      constructor
      · intro hw
        exact ⟨h, o, [], rfl, hw, by simp⟩
      · rintro ⟨a, w, b, hab, hw, hb⟩
        rcases List.eq_nil_or_concat b with rfl | ⟨b', x, rfl⟩
        · have := (List.append_inj' hab rfl).2
          obtain rfl : o = w := by simpa using this
          exact hw
        · have hx : o = x := by
            have h3 : a ++ w :: (b' ++ [x]) = (a ++ w :: b') ++ [x] := by simp
            rw [List.concat_eq_append, h3] at hab
            simpa using (List.append_inj' hab rfl).2
          exact absurd (by rw [hx]) (hb x (by simp))
    · rw [apply_other _ _ hk, ih]
      constructor
      · rintro ⟨a, w, b, rfl, hw, hb⟩
        refine ⟨a, w, b ++ [o], by simp, hw, fun x hx => ?_⟩
        rcases List.mem_append.1 hx with hx | hx
        · exact hb x hx
        · rw [List.mem_singleton.1 hx]
          exact hk
      · rintro ⟨a, w, b, hab, hw, hb⟩
        rcases List.eq_nil_or_concat b with rfl | ⟨b', x, rfl⟩
        · obtain rfl : o = w := by simpa using (List.append_inj' hab rfl).2
          rcases hw with rfl | rfl <;> exact absurd rfl hk
        · have h3 : a ++ w :: (b' ++ [x]) = (a ++ w :: b') ++ [x] := by simp
          rw [List.concat_eq_append, h3] at hab
          have := (List.append_inj' hab rfl).1
          exact ⟨a, w, b', this, hw, fun y hy => hb y (by simp [hy])⟩

/-- **C157** (items): after any history, an item is the value that was stored last under its name, as an attribute or as an
item; there is a `KeyError` if there is none. -/
theorem C157_items (h : List (Op V)) (name : String) : (∀ v, getItem (after h) name = .value v ↔ LastWritten h name v) ∧
    (getItem (after h) name = .keyError name ↔ ∀ v, ¬ LastWritten h name v) := by
  simp only [← after_iff]
  unfold getItem
  cases after h name <;> simp

/-- **C157** (attributes, partial): the same holds for attributes, with an `AttributeError`, unless the class has an attribute
of this name.  Deleting an attribute fails exactly if there is no value, and never otherwise. -/
theorem C157_attributes_partial (h : List (Op V)) (name : String) (hn : name ∉ members) :
    (∀ v, getAttr (after h) name = .value v ↔ LastWritten h name v) ∧
    (getAttr (after h) name = .attributeError name ↔ ∀ v, ¬ LastWritten h name v) ∧
    ((delAttr (after h) name).2 = .attributeError name ↔ ∀ v, ¬ LastWritten h name v) ∧
    ((delAttr (after h) name).2 = .done ↔ ∃ v, LastWritten h name v) := by
  simp only [← after_iff]
  unfold getAttr delAttr delItem getItem
  rw [if_neg hn]
  cases after h name <;> simp [asAttribute]

/-- **C157** (violated): a value stored as an attribute is not always what the attribute evaluates to afterwards: there is a
name for which any value is stored without an exception, and the attribute evaluates to none of them. -/
theorem C157_violated : ∃ name : String, ∀ (h : List (Op V)) (v : V),
    (setAttr (after h) name v).2 = .done ∧ LastWritten (h ++ [.setAttr name v]) name v ∧
    ∀ x, getAttr (after (h ++ [.setAttr name v])) name ≠ .value x := by
  refine ⟨"items", fun h v => ⟨rfl, ⟨h, _, [], rfl, Or.inl rfl, by simp⟩, fun x => ?_⟩⟩
  unfold getAttr
  rw [if_pos (by decide)]
  simp

/-- **C157** (exact condition): attributes of a name yield the value stored last in all histories if and only if the class has
no attribute of this name. -/
theorem C157_attributes_iff [Nonempty V] (name : String) :
    (∀ (h : List (Op V)) (v : V), LastWritten h name v → getAttr (after h) name = .value v) ↔ name ∉ members := by
  constructor
  · intro hall hm
    obtain ⟨v⟩ := ‹Nonempty V›
    have := hall [.setAttr name v] v ⟨[], _, [], rfl, Or.inl rfl, by simp⟩
    unfold getAttr at this
    rw [if_pos hm] at this
    simp at this
  · intro hn h v hw
    exact ((C157_attributes_partial h name hn).1 v).2 hw

/-- A history with a value that is replaced and a value that is deleted; `a` and `b` are not attributes of the class. -/
example : "a" ∉ members ∧ "b" ∉ members ∧
    getAttr (after [.setAttr "a" 1, .setItem "b" 2, .setItem "a" 3, .delAttr "b"]) "a" = .value 3 ∧
    getAttr (after [.setAttr "a" 1, .setItem "b" 2, .setItem "a" 3, .delAttr "b"]) "b" = .attributeError "b" := by
  decide

end Verif.Util
