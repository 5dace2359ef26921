/-
C101: the variables of the linear programs.
-/
import Verif.Model.LpCommon

namespace Verif.SR.Lp
open Verif.Spec

/-- Two requests of different tasks, both within the limits that are checked, that share a variable. -/
def clash : List Key := [⟨.direct, 1, 0, 0⟩, ⟨.direct, 0, 2 ^ 20, 0⟩]

/-- **C101** (the code violates the property): a variable is shared by two requests of different tasks although all
checks pass. -/
theorem C101_variables_clash : ∃ (ks : List Key) (vs : List ℕ) (m : VarMapper), VarMapper.lookups {} ks = some (vs, m) ∧
    ∃ (i j : ℕ) (a b : Key), ks[i]? = some a ∧ ks[j]? = some b ∧ a.task ≠ b.task ∧ vs[i]? = vs[j]? :=
  ⟨clash, [0, 0], ⟨[(2 ^ 30, 0)], 1, false⟩, by decide +kernel, 0, 1, ⟨.direct, 1, 0, 0⟩, ⟨.direct, 0, 2 ^ 20, 0⟩, rfl, rfl,
    by decide, rfl⟩

theorem encode_eq {k : Key} {e : ℕ} (hr : k.req < 2 ^ 20) (h : encodeRequest k = some e) :
    k.task < 2 ^ 30 ∧ k.res < 2 ^ 10 ∧
      e = k.ty.num * 2 ^ 62 + k.task * 2 ^ 30 + k.req * 2 ^ 10 + k.res := by
  unfold encodeRequest at h
  split_ifs at h with hc
  obtain ⟨h1, h2, h3, h4⟩ := hc
  simp only [Nat.one_shiftLeft] at h1 h2 h3 h4
  refine ⟨h1, h2, ?_⟩
  have e1 : k.ty.num <<< 62 ||| k.task <<< 30 = (k.ty.num * 2 ^ 32 + k.task) <<< 30 := by
    rw [← Nat.shiftLeft_add_eq_or_of_lt]
    · simp only [Nat.shiftLeft_eq]
      ring
    · simp only [Nat.shiftLeft_eq]
      omega
  have e2 : (k.ty.num * 2 ^ 32 + k.task) <<< 30 ||| k.req <<< 10 =
      (k.ty.num * 2 ^ 52 + k.task * 2 ^ 20 + k.req) <<< 10 := by
    rw [← Nat.shiftLeft_add_eq_or_of_lt]
    · simp only [Nat.shiftLeft_eq]
      ring
    · simp only [Nat.shiftLeft_eq]
      omega
  have e3 : (k.ty.num * 2 ^ 52 + k.task * 2 ^ 20 + k.req) <<< 10 ||| k.res =
      k.ty.num * 2 ^ 62 + k.task * 2 ^ 30 + k.req * 2 ^ 10 + k.res := by
    rw [← Nat.shiftLeft_add_eq_or_of_lt h2]
    simp only [Nat.shiftLeft_eq]
    ring
  rw [e1, e2, e3, Nat.mod_eq_of_lt (by omega)] at h
  exact (Option.some.inj h).symm

theorem encode_inj {a b : Key} {e : ℕ} (ha : a.req < 2 ^ 20) (hb : b.req < 2 ^ 20) (h1 : encodeRequest a = some e)
    (h2 : encodeRequest b = some e) : a = b := by
  obtain ⟨a1, a2, a3⟩ := encode_eq ha h1
  obtain ⟨b1, b2, b3⟩ := encode_eq hb h2
  rw [a3] at b3
  have hn : a.ty.num = b.ty.num := by omega
  have ht : a.ty = b.ty := by
    cases ha : a.ty <;> cases hb : b.ty <;> rw [ha, hb] at hn <;> first | rfl | cases hn
  obtain ⟨at1, at2, at3, at4⟩ := a
  obtain ⟨bt1, bt2, bt3, bt4⟩ := b
  simp only [Key.mk.injEq] at *
  subst ht
  simp only [true_and]
  refine ⟨?_, ?_, ?_⟩ <;> omega

/-- Different keys have different numbers. -/
def VarMapper.Distinct (m : VarMapper) : Prop :=
  (∀ k v, m.map.lookup k = some v → v < m.next) ∧
    ∀ a b v, m.map.lookup a = some v → m.map.lookup b = some v → a = b

theorem varForKey_spec {m m' : VarMapper} {key v : ℕ} (hm : m.Distinct) (h : m.varForKey key = some (v, m')) :
    m'.Distinct ∧ m'.map.lookup key = some v ∧ ∀ a w, m.map.lookup a = some w → m'.map.lookup a = some w := by
  unfold VarMapper.varForKey at h
  rcases hl : m.map.lookup key with _ | w
  · rw [hl] at h
    simp only at h
    split_ifs at h
    cases h
    have key' : ∀ a, (List.lookup a ((key, m.next) :: m.map)) = if a = key then some m.next else m.map.lookup a := by
      intro a
      by_cases hc : a = key
      · simp [List.lookup_cons, hc]
      · have : (a == key) = false := by simpa using hc
        rw [List.lookup_cons, this, if_neg hc]
    refine ⟨⟨?_, ?_⟩, ?_, ?_⟩
    · intro a w ha
      simp only [key'] at ha ⊢
      split_ifs at ha with hc
      · cases ha
        omega
      · have := hm.1 _ _ ha
        omega
    · intro a b w ha hb
      simp only [key'] at ha hb
      split_ifs at ha with h1 <;> split_ifs at hb with h2
      · rw [h1, h2]
      · cases ha
        have := hm.1 _ _ hb
        omega
      · cases hb
        have := hm.1 _ _ ha
        omega
      · exact hm.2 _ _ _ ha hb
    · simp only [key', if_true]
    · intro a w ha
      simp only [key']
      rw [if_neg, ha]
      rintro rfl
      rw [hl] at ha
      cases ha
  · rw [hl] at h
    cases h
    exact ⟨hm, hl, fun _ _ h => h⟩

theorem lookups_spec {ks : List Key} : ∀ {m m' : VarMapper} {vs : List ℕ}, m.Distinct →
    m.lookups ks = some (vs, m') → m'.Distinct ∧ (∀ a w, m.map.lookup a = some w → m'.map.lookup a = some w) ∧
      vs.length = ks.length ∧
      ∀ (i : ℕ) (k : Key) (v : ℕ), ks[i]? = some k → vs[i]? = some v → ∃ e, encodeRequest k = some e ∧ m'.map.lookup e = some v := by
  induction ks with
  | nil =>
    intro m m' vs hm h
    cases h
    exact ⟨hm, fun _ _ h => h, rfl, by simp⟩
  | cons k ks ih =>
    intro m m' vs hm h
    unfold VarMapper.lookups at h
    rcases h1 : m.lookup k with _ | ⟨v, m1⟩
    · rw [h1] at h
      cases h
    · rw [h1] at h
      simp only at h
      rcases h2 : m1.lookups ks with _ | ⟨vs', m2⟩
      · rw [h2] at h
        cases h
      · rw [h2] at h
        cases h
        unfold VarMapper.lookup at h1
        rcases he : encodeRequest k with _ | e
        · rw [he] at h1
          cases h1
        · rw [he] at h1
          obtain ⟨a1, a2, a3⟩ := varForKey_spec hm h1
          obtain ⟨b1, b2, b3, b4⟩ := ih a1 h2
          refine ⟨b1, fun a w ha => b2 _ _ (a3 _ _ ha), by simp [b3], ?_⟩
          intro i k' v' hk hv
          cases i with
          | zero =>
            simp only [List.getElem?_cons_zero] at hk hv
            cases hk
            cases hv
            exact ⟨e, he, b2 _ _ a2⟩
          | succ i =>
            simp only [List.getElem?_cons_succ] at hk hv
            exact b4 i k' v' hk hv

/-- **C101** (partial): if tasks issue fewer than `2 ^ 20` requests each, then in every sequence of lookups two
variables are the same if and only if they are looked up for the same kind of blocking, task, request and
resource. -/
theorem C101_variables_partial (start : ℕ) (ks : List Key) (hks : ∀ k ∈ ks, k.req < 2 ^ 20) (vs : List ℕ) (m : VarMapper)
    (h : VarMapper.lookups { next := start } ks = some (vs, m)) (i j : ℕ) (a b : Key) (hi : ks[i]? = some a)
    (hj : ks[j]? = some b) : ∃ v w, vs[i]? = some v ∧ vs[j]? = some w ∧ (v = w ↔ a = b) := by
  obtain ⟨h1, _, h3, h4⟩ := lookups_spec (by
    unfold VarMapper.Distinct
    simp) h
  have hil := (List.getElem?_eq_some_iff.1 hi).1
  have hjl := (List.getElem?_eq_some_iff.1 hj).1
  rw [← h3] at hil hjl
  refine ⟨vs[i], vs[j], List.getElem?_eq_getElem hil, List.getElem?_eq_getElem hjl, ?_⟩
  obtain ⟨e, he, hev⟩ := h4 i a _ hi (List.getElem?_eq_getElem hil)
  obtain ⟨f, hf, hfv⟩ := h4 j b _ hj (List.getElem?_eq_getElem hjl)
  constructor
  · intro heq
    rw [heq] at hev
    have := h1.2 _ _ _ hev hfv
    subst this
    exact encode_inj (hks a (List.mem_of_getElem? hi)) (hks b (List.mem_of_getElem? hj)) he hf
  · rintro rfl
    rw [he] at hf
    cases hf
    rw [hev] at hfv
    exact Option.some.inj hfv

/-- Four lookups, one of them repeated. -/
example : (VarMapper.lookups { next := 5 } [⟨.direct, 1, 0, 0⟩, ⟨.indirect, 1, 0, 0⟩, ⟨.direct, 1, 0, 0⟩,
    ⟨.direct, 0, 2 ^ 20 - 1, 1023⟩]).map Prod.fst = some [5, 6, 5, 7] := by decide +kernel

end Verif.SR.Lp
