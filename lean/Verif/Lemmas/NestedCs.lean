/-
Lemmas about nested critical sections.
-/
import Verif.Spec.Nested
import Mathlib.Tactic.Linarith
import Mathlib.Data.Finset.Card

namespace Verif.Nested
open Relation

/-- Containing critical sections are added first. -/
theorem Built.outer_lt {cs : TaskCs} (h : Built cs) :
    ∀ (i : ℕ) (c : CritSec) (j : ℕ), cs[i]? = some c → c.outer = some j → j < i := by
  induction h with
  | nil => intro i c j h; simp at h
  | @add cs cs' res len outer _ hadd ih =>
    intro i c j hi hj
    have key : ∀ x : CritSec, (∀ o, x.outer = some o → o < cs.length) →
        cs' = cs ++ [x] → j < i := by
      intro x hx hcs
      subst hcs
      by_cases hlt : i < cs.length
      · rw [List.getElem?_append_left hlt] at hi
        exact ih i c j hi hj
      · rw [List.getElem?_append_right (by omega)] at hi
        have h0 : i - cs.length = 0 := by
          by_contra hne
          rw [List.getElem?_eq_none (by simp; omega)] at hi
          simp at hi
        rw [h0] at hi
        simp only [List.getElem?_cons_zero, Option.some.injEq] at hi
        subst hi
        have := hx j hj
        omega
    unfold Nested.add at hadd
    cases outer with
    | none =>
      simp only [Option.some.injEq] at hadd
      exact key _ (by simp) hadd.symm
    | some o =>
      by_cases ho : o < cs.length
      · simp only [ho, if_true, Option.some.injEq] at hadd
        exact key _ (by simp [ho]) hadd.symm
      · simp [ho] at hadd

theorem outerLoop_spec {cs : TaskCs} (h : Built cs) (n : ℕ) :
    ∀ (held : Option ℕ) (acc : List ℕ),
      (∀ k, held = some k → k < n) → n ≤ cs.length →
      ∃ l, outerLoop cs n held acc = some (acc ++ l) ∧
        ∀ q, q ∈ l ↔ ∃ k j c, held = some k ∧ ReflTransGen (Inside cs) k j ∧
          cs[j]? = some c ∧ c.res = q := by
  induction n using Nat.strong_induction_on with
  | _ n ih =>
    intro held acc hk hn
    cases held with
    | none =>
      refine ⟨[], ?_, ?_⟩
      · cases n <;> simp [outerLoop]
      · intro q; simp
    | some k =>
      have hkn := hk k rfl
      cases n with
      | zero => omega
      | succ n =>
        have hlt : k < cs.length := by omega
        have hget : cs[k]? = some cs[k] := List.getElem?_eq_getElem hlt
        obtain ⟨l, hl, hmem⟩ := ih n (by omega) cs[k].outer (acc ++ [cs[k].res])
          (fun o ho => by have := h.outer_lt k _ o hget ho; omega) (by omega)
        refine ⟨cs[k].res :: l, ?_, ?_⟩
        · simp only [outerLoop, hget]
          rw [hl]; simp
        · intro q
          rw [List.mem_cons, hmem]
          constructor
          · rintro (rfl | ⟨o, j, c, ho, hoj, hc, hq⟩)
            · exact ⟨k, k, _, rfl, .refl, hget, rfl⟩
            · exact ⟨k, j, c, rfl, .head ⟨_, hget, ho⟩ hoj, hc, hq⟩
          · rintro ⟨k', j, c, hk', hkj, hc, hq⟩
            obtain rfl : k = k' := by simpa using hk'
            rcases ReflTransGen.cases_head hkj with rfl | ⟨o, ⟨c', hc', ho⟩, hoj⟩
            · rw [hget] at hc
              obtain rfl : cs[k] = c := by simpa using hc
              exact Or.inl hq.symm
            · rw [hget] at hc'
              obtain rfl : cs[k] = c' := by simpa using hc'
              exact Or.inr ⟨o, j, c, ho, hoj, hc, hq⟩

theorem commonLoop_spec {cs : TaskCs} (h : Built cs) (other : List ℕ) (n : ℕ) :
    ∀ (held : Option ℕ), (∀ k, held = some k → k < n) → n ≤ cs.length →
      ∃ b, commonLoop cs other n held = some b ∧
        (b = true ↔ ∃ k j c, held = some k ∧ ReflTransGen (Inside cs) k j ∧
          cs[j]? = some c ∧ c.res ∈ other) := by
  induction n using Nat.strong_induction_on with
  | _ n ih =>
    intro held hk hn
    cases held with
    | none =>
      refine ⟨false, ?_, by simp⟩
      cases n <;> simp [commonLoop]
    | some k =>
      have hkn := hk k rfl
      cases n with
      | zero => omega
      | succ n =>
        have hlt : k < cs.length := by omega
        have hget : cs[k]? = some cs[k] := List.getElem?_eq_getElem hlt
        by_cases hin : cs[k].res ∈ other
        · refine ⟨true, ?_, ?_⟩
          · simp only [commonLoop, hget, hin, if_true]
          · exact ⟨fun _ => ⟨k, k, _, rfl, .refl, hget, hin⟩, fun _ => rfl⟩
        · obtain ⟨b, hb, hiff⟩ := ih n (by omega) cs[k].outer
            (fun o ho => by have := h.outer_lt k _ o hget ho; omega) (by omega)
          refine ⟨b, ?_, hiff.trans ?_⟩
          · simp only [commonLoop, hget, hin, if_false]
            exact hb
          · constructor
            · rintro ⟨o, j, c, ho, hoj, hc, hq⟩
              exact ⟨k, j, c, rfl, .head ⟨_, hget, ho⟩ hoj, hc, hq⟩
            · rintro ⟨k', j, c, hk', hkj, hc, hq⟩
              obtain rfl : k = k' := by simpa using hk'
              rcases ReflTransGen.cases_head hkj with rfl | ⟨o, ⟨c', hc', ho⟩, hoj⟩
              · rw [hget] at hc
                obtain rfl : cs[k] = c := by simpa using hc
                exact absurd hq hin
              · rw [hget] at hc'
                obtain rfl : cs[k] = c' := by simpa using hc'
                exact ⟨o, j, c, ho, hoj, hc, hq⟩

/-- Being held around section `i`, seen from the critical section itself. -/
theorem heldAround_iff {cs : TaskCs} {i : ℕ} {c : CritSec} (hi : cs[i]? = some c) (q : ℕ) :
    HeldAround cs i q ↔ ∃ k j d, c.outer = some k ∧ ReflTransGen (Inside cs) k j ∧
      cs[j]? = some d ∧ d.res = q := by
  constructor
  · rintro ⟨j, d, hij, hd, hq⟩
    obtain ⟨k, ⟨c', hc', hk⟩, hkj⟩ := TransGen.head'_iff.mp hij
    rw [hi] at hc'
    obtain rfl : c = c' := by simpa using hc'
    exact ⟨k, j, d, hk, hkj, hd, hq⟩
  · rintro ⟨k, j, d, hk, hkj, hd, hq⟩
    exact ⟨j, d, TransGen.head'_iff.mpr ⟨k, ⟨c, hi, hk⟩, hkj⟩, hd, hq⟩

theorem outer_lt_length {cs : TaskCs} (h : Built cs) {i : ℕ} {c : CritSec}
    (hi : cs[i]? = some c) : ∀ k, c.outer = some k → k < cs.length := by
  intro k hk
  have h1 := h.outer_lt i c k hi hk
  have h2 := (List.getElem?_eq_some_iff.mp hi).1
  omega

theorem outermost_spec {cs : TaskCs} (h : Built cs) (n : ℕ) :
    ∀ cur, cur < n → n ≤ cs.length →
      ∃ r c, outermost cs n cur = some r ∧ ReflTransGen (Inside cs) cur r ∧
        cs[r]? = some c ∧ c.outer = none := by
  induction n using Nat.strong_induction_on with
  | _ n ih =>
    intro cur hcur hn
    cases n with
    | zero => omega
    | succ n =>
      have hlt : cur < cs.length := by omega
      have hget : cs[cur]? = some cs[cur] := List.getElem?_eq_getElem hlt
      cases ho : cs[cur].outer with
      | none => exact ⟨cur, _, by simp [outermost, hget, ho], .refl, hget, ho⟩
      | some o =>
        have hoc := h.outer_lt cur _ o hget ho
        obtain ⟨r, c, hr, hrr, hc, hco⟩ := ih n (by omega) o (by omega) (by omega)
        exact ⟨r, c, by simp [outermost, hget, ho, hr], .head ⟨_, hget, ho⟩ hrr, hc, hco⟩

/-! ### The relation of directly nested requests -/

/-- State of `directly_nested` after some requests. -/
structure DirectOk (d : Rel) (keys : ℕ → Prop) (R : ℕ → ℕ → Prop) : Prop where
  keys : ∀ q, (d q).isSome ↔ keys q
  mem : ∀ q s, d q = some s → ∀ r, r ∈ s ↔ R q r

theorem addDirect_spec {t : TaskCs} (ht : Built t) {d : Rel} {keys : ℕ → Prop}
    {R : ℕ → ℕ → Prop} (hd : DirectOk d keys R) (hR : ∀ q r, R q r → keys q)
    {i : ℕ} {c : CritSec} (hi : t[i]? = some c)
    (hprev : ∀ j p, j < i → t[j]? = some p → keys p.res) :
    ∃ d', addDirect t d c = some d' ∧
      DirectOk d' (fun q => keys q ∨ q = c.res)
        (fun q r => R q r ∨ ∃ j p, c.outer = some j ∧ t[j]? = some p ∧ p.res = q ∧
          c.res = r) := by
  -- the map with an entry for the requested resource
  have h1 : ∃ d1, (if (d c.res).isNone then Function.update d c.res (some ∅) else d) = d1 ∧
      DirectOk d1 (fun q => keys q ∨ q = c.res) R := by
    refine ⟨_, rfl, ?_, ?_⟩
    · intro q
      by_cases hn : (d c.res).isNone
      · rw [if_pos hn]
        by_cases hq : q = c.res
        · subst hq; simp
        · rw [Function.update_of_ne hq, hd.keys]; simp [hq]
      · rw [if_neg hn, hd.keys]
        have : keys c.res := (hd.keys _).mp (by simpa [Option.isSome_iff_ne_none] using hn)
        constructor
        · exact Or.inl
        · rintro (h | rfl) <;> assumption
    · intro q s hs r
      by_cases hn : (d c.res).isNone
      · rw [if_pos hn] at hs
        by_cases hq : q = c.res
        · subst hq
          simp only [Function.update_self, Option.some.injEq] at hs
          subst hs
          refine ⟨by simp, fun hr => ?_⟩
          have := (hd.keys _).mpr (hR _ _ hr)
          rw [Option.isNone_iff_eq_none.mp hn] at this
          simp at this
        · rw [Function.update_of_ne hq] at hs
          exact hd.mem q s hs r
      · rw [if_neg hn] at hs
        exact hd.mem q s hs r
  obtain ⟨d1, hd1, hok⟩ := h1
  unfold addDirect
  simp only
  rw [hd1]
  cases ho : c.outer with
  | none =>
    refine ⟨d1, rfl, hok.keys, ?_⟩
    intro q s hs r
    rw [hok.mem q s hs r]
    simp
  | some o =>
    have hoi := ht.outer_lt i c o hi ho
    have hlen := (List.getElem?_eq_some_iff.mp hi).1
    have hget : t[o]? = some (t[o]'(by omega)) := List.getElem?_eq_getElem (by omega)
    have hkey := hprev o _ hoi hget
    simp only [hget]
    obtain ⟨s0, hs0⟩ := Option.isSome_iff_exists.mp ((hok.keys _).mpr (Or.inl hkey))
    refine ⟨_, rfl, ?_, ?_⟩
    · intro q
      by_cases hq : q = (t[o]'(by omega)).res
      · subst hq; simp [hkey]
      · rw [Function.update_of_ne hq, hok.keys]
    · intro q s hs r
      by_cases hq : q = (t[o]'(by omega)).res
      · subst hq
        rw [Function.update_self, hs0] at hs
        simp only [Option.getD_some, Option.some.injEq] at hs
        subst hs
        rw [Finset.mem_insert, hok.mem _ s0 hs0 r]
        constructor
        · rintro (rfl | h)
          · exact Or.inr ⟨o, _, rfl, hget, rfl, rfl⟩
          · exact Or.inl h
        · rintro (h | ⟨j, p, _, _, _, h⟩)
          · exact Or.inr h
          · exact Or.inl h.symm
      · rw [Function.update_of_ne hq] at hs
        rw [hok.mem q s hs r]
        constructor
        · exact Or.inl
        · rintro (h | ⟨j, p, hj, hp, hpq, h⟩)
          · exact h
          · obtain rfl : o = j := by simpa using hj
            rw [hget] at hp
            obtain rfl := Option.some.inj hp
            exact absurd hpq.symm hq

theorem foldl_task {t : TaskCs} (ht : Built t) (post : List CritSec) :
    ∀ (pre : List CritSec), t = pre ++ post →
    ∀ (d : Rel) (keys : ℕ → Prop) (R : ℕ → ℕ → Prop), DirectOk d keys R →
      (∀ q r, R q r → keys q) → (∀ p ∈ pre, keys p.res) →
      ∃ d', post.foldlM (addDirect t) d = some d' ∧
        DirectOk d' (fun q => keys q ∨ ∃ c ∈ post, c.res = q)
          (fun q r => R q r ∨ ∃ c ∈ post, ∃ j p, c.outer = some j ∧ t[j]? = some p ∧
            p.res = q ∧ c.res = r) := by
  induction post with
  | nil =>
    intro pre _ d keys R hd _ _
    exact ⟨d, rfl, by simpa using hd⟩
  | cons c post ih =>
    intro pre hpre d keys R hd hR hk
    have hi : t[pre.length]? = some c := by rw [hpre]; simp
    have hprev : ∀ j p, j < pre.length → t[j]? = some p → keys p.res := by
      intro j p hj hp
      rw [hpre, List.getElem?_append_left hj] at hp
      exact hk p (List.mem_of_getElem? hp)
    obtain ⟨d1, hd1, hok1⟩ := addDirect_spec ht hd hR hi hprev
    obtain ⟨d2, hd2, hok2⟩ := ih (pre ++ [c]) (by rw [hpre]; simp) d1 _ _ hok1
      (by
        rintro q r (h | ⟨j, p, hj, hp, rfl, _⟩)
        · exact Or.inl (hR q r h)
        · exact Or.inl (hprev j p (ht.outer_lt _ c j hi hj) hp))
      (by
        intro p hp
        rcases List.mem_append.mp hp with h | h
        · exact Or.inl (hk p h)
        · simp only [List.mem_singleton] at h
          exact Or.inr (by rw [h]))
    refine ⟨d2, ?_, ?_, ?_⟩
    · simp only [List.foldlM_cons, hd1]
      exact hd2
    · intro q
      rw [hok2.keys]
      simp only [List.mem_cons, exists_eq_or_imp, or_assoc]
      constructor
      · rintro (h | h | h)
        · exact Or.inl h
        · exact Or.inr (Or.inl h.symm)
        · exact Or.inr (Or.inr h)
      · rintro (h | h | h)
        · exact Or.inl h
        · exact Or.inr (Or.inl h.symm)
        · exact Or.inr (Or.inr h)
    · intro q s hs r
      rw [hok2.mem q s hs r]
      simp only [List.mem_cons, exists_eq_or_imp, or_assoc]

theorem foldl_tasks (tsks : List TaskCs) (h : ∀ t ∈ tsks, Built t) :
    ∀ (d : Rel) (keys : ℕ → Prop) (R : ℕ → ℕ → Prop), DirectOk d keys R →
      (∀ q r, R q r → keys q) →
      ∃ d', tsks.foldlM (fun d t => t.foldlM (addDirect t) d) d = some d' ∧
        DirectOk d' (fun q => keys q ∨ Requested tsks q)
          (fun q r => R q r ∨ RequestsWithin tsks q r) := by
  induction tsks with
  | nil =>
    intro d keys R hd _
    refine ⟨d, rfl, ?_⟩
    simpa [Requested, RequestsWithin] using hd
  | cons t rest ih =>
    intro d keys R hd hR
    have ht := h t (by simp)
    obtain ⟨d1, hd1, hok1⟩ := foldl_task ht t [] rfl d keys R hd hR (by simp)
    obtain ⟨d2, hd2, hok2⟩ := ih (fun x hx => h x (by simp [hx])) d1 _ _ hok1
      (by
        rintro q r (h | ⟨c, _, j, p, _, hp, rfl, _⟩)
        · exact Or.inl (hR q r h)
        · exact Or.inr ⟨p, List.mem_of_getElem? hp, rfl⟩)
    refine ⟨d2, ?_, ?_, ?_⟩
    · simp only [List.foldlM_cons, hd1]
      exact hd2
    · intro q
      rw [hok2.keys]
      simp [Requested, or_assoc]
    · intro q s hs r
      rw [hok2.mem q s hs r]
      constructor
      · rintro ((h | ⟨c, hc, j, p, hj, hp, hq, hr⟩) | ⟨x, hx, h⟩)
        · exact Or.inl h
        · obtain ⟨i, hi⟩ := List.getElem?_of_mem hc
          exact Or.inr ⟨t, by simp, i, j, c, p, hi, hj, hp, hq, hr⟩
        · exact Or.inr ⟨x, by simp [hx], h⟩
      · rintro (h | ⟨x, hx, i, j, c, p, hi, hj, hp, hq, hr⟩)
        · exact Or.inl (Or.inl h)
        · rcases List.mem_cons.mp hx with rfl | hx
          · exact Or.inl (Or.inr ⟨c, List.mem_of_getElem? hi, j, p, hj, hp, hq, hr⟩)
          · exact Or.inr ⟨x, hx, i, j, c, p, hi, hj, hp, hq, hr⟩

theorem directlyNested_spec {tsks : List TaskCs} (h : ∀ t ∈ tsks, Built t) :
    ∃ d, directlyNested tsks = some d ∧ DirectOk d (Requested tsks) (RequestsWithin tsks) := by
  obtain ⟨d, hd, hok⟩ := foldl_tasks tsks h (fun _ => none) (fun _ => False)
    (fun _ _ => False) ⟨by simp, by simp⟩ (by simp)
  exact ⟨d, hd, by simpa using hok⟩

/-! ### The transitive relation -/

/-- Every finished entry is the set of all resources that may be requested. -/
def Finished (R : ℕ → ℕ → Prop) (m : Rel) (A : ℕ → Prop) : Prop :=
  ∀ q s, m q = some s → ¬ A q → ∀ r, r ∈ s ↔ TransGen R q r

/-- Number of resources of `K` without an entry. -/
def missing (K : Finset ℕ) (m : Rel) : ℕ := (K.filter fun q => m q = none).card

theorem missing_mono {K : Finset ℕ} {m m' : Rel} (h : ∀ q s, m q = some s → m' q = some s) :
    missing K m' ≤ missing K m := by
  apply Finset.card_le_card
  intro q hq
  simp only [Finset.mem_filter] at hq ⊢
  refine ⟨hq.1, ?_⟩
  cases hm : m q with
  | none => rfl
  | some s => rw [h q s hm] at hq; simp at hq

theorem missing_update {K : Finset ℕ} {m : Rel} {q : ℕ} (hq : q ∈ K) (hm : m q = none)
    (s : Finset ℕ) : missing K (Function.update m q (some s)) + 1 ≤ missing K m := by
  have : (K.filter fun x => Function.update m q (some s) x = none) ⊂
      K.filter fun x => m x = none := by
    rw [Finset.ssubset_iff_of_subset]
    · exact ⟨q, by simp [hq, hm], by simp⟩
    · intro x hx
      simp only [Finset.mem_filter] at hx ⊢
      refine ⟨hx.1, ?_⟩
      by_cases hxq : x = q
      · subst hxq; exact hm
      · rw [Function.update_of_ne hxq] at hx; exact hx.2
  have := Finset.card_lt_card this
  unfold missing
  omega

section
variable {en : Enum} {d : Rel} {K : Finset ℕ} {R : ℕ → ℕ → Prop}

/-- What a call of `build` achieves. -/
def BuildOk (en : Enum) (d : Rel) (R : ℕ → ℕ → Prop) (K : Finset ℕ) (n : ℕ) : Prop :=
  ∀ (m : Rel) (A : ℕ → Prop) (res : ℕ), res ∈ K → missing K m ≤ n →
    Finished R m A → (∀ a, A a → TransGen R a res) →
    ∃ m', build en d n m res = some m' ∧ (∀ q s, m q = some s → m' q = some s) ∧
      Finished R m' A ∧ (m' res).isSome ∧ ∀ q, (m' q).isSome → (m q).isSome ∨ q ∈ K

theorem buildLoop_spec (n : ℕ) (hb : BuildOk en d R K n) (acyclic : ∀ q, ¬ TransGen R q q)
    (res : ℕ) (A : ℕ → Prop) (hA : ∀ a, A a → TransGen R a res) (l : List ℕ) :
    ∀ (done : List ℕ) (m : Rel), (∀ x ∈ l, R res x ∧ x ∈ K) →
      missing K m ≤ n →
      Finished R m (fun q => A q ∨ q = res) →
      (∃ s, m res = some s ∧ ∀ r, r ∈ s ↔ ∃ x ∈ done, r = x ∨ TransGen R x r) →
      ∃ m', buildLoop (build en d n) res l m = some m' ∧
        (∀ q s, q ≠ res → m q = some s → m' q = some s) ∧
        Finished R m' (fun q => A q ∨ q = res) ∧
        (∃ s, m' res = some s ∧ ∀ r, r ∈ s ↔ ∃ x ∈ done ++ l, r = x ∨ TransGen R x r) ∧
        ∀ q, (m' q).isSome → (m q).isSome ∨ q ∈ K := by
  induction l with
  | nil =>
    intro done m _ _ hf hs
    exact ⟨m, by simp [buildLoop], fun _ _ _ h => h, hf, by simpa using hs, fun _ h => Or.inl h⟩
  | cons x rest ih =>
    intro done m hl hmiss hf ⟨s, hs, hsm⟩
    obtain ⟨hRx, hxK⟩ := hl x (by simp)
    obtain ⟨m1, hm1, hext, hf1, hsome, hdom⟩ := hb m (fun q => A q ∨ q = res) x hxK hmiss hf
      (by
        rintro a (ha | rfl)
        · exact (hA a ha).tail hRx
        · exact .single hRx)
    obtain ⟨sx, hsx⟩ := Option.isSome_iff_exists.mp hsome
    have hxA : ¬ (A x ∨ x = res) := by
      rintro (ha | rfl)
      · exact acyclic x ((hA x ha).tail hRx)
      · exact acyclic x (.single hRx)
    have hsx' := hf1 x sx hsx hxA
    have hs1 := hext res s hs
    obtain ⟨m2, hm2, hext2, hf2, hs2, hdom2⟩ := ih (done ++ [x])
      (Function.update m1 res (some (insert x ((m1 res).getD ∅) ∪ (m1 x).getD ∅)))
      (fun y hy => hl y (by simp [hy]))
      (by
        refine le_trans ?_ hmiss
        refine le_trans ?_ (missing_mono hext)
        apply Finset.card_le_card
        intro q hq
        simp only [Finset.mem_filter] at hq ⊢
        refine ⟨hq.1, ?_⟩
        by_cases hqr : q = res
        · subst hqr; simp at hq
        · rw [Function.update_of_ne hqr] at hq; exact hq.2)
      (by
        intro q t ht hq
        have hqr : q ≠ res := fun h => hq (Or.inr h)
        rw [Function.update_of_ne hqr] at ht
        exact hf1 q t ht hq)
      ⟨_, Function.update_self .., by
        intro r
        rw [hs1, hsx]
        simp only [Option.getD_some, Finset.mem_union, Finset.mem_insert, hsm, hsx',
          List.mem_append, List.mem_singleton]
        constructor
        · rintro ((rfl | ⟨y, hy, h⟩) | h)
          · exact ⟨r, Or.inr rfl, Or.inl rfl⟩
          · exact ⟨y, Or.inl hy, h⟩
          · exact ⟨x, Or.inr rfl, Or.inr h⟩
        · rintro ⟨y, hy | rfl, h⟩
          · exact Or.inl (Or.inr ⟨y, hy, h⟩)
          · rcases h with rfl | h
            · exact Or.inl (Or.inl rfl)
            · exact Or.inr h⟩
    refine ⟨m2, ?_, ?_, hf2, ?_, ?_⟩
    · simp only [buildLoop, hm1]
      exact hm2
    · intro q t hq ht
      apply hext2 q t hq
      rw [Function.update_of_ne hq]
      exact hext q t ht
    · simpa using hs2
    · intro q hq
      rcases hdom2 q hq with h | h
      · by_cases hqr : q = res
        · subst hqr; left; simp [hs]
        · rw [Function.update_of_ne hqr] at h
          exact hdom q h
      · exact Or.inr h

theorem build_spec (acyclic : ∀ q, ¬ TransGen R q q)
    (hd : ∀ q ∈ K, ∀ r, r ∈ (d q).getD ∅ ↔ R q r) (hK : ∀ q r, R q r → r ∈ K)
    (hen : ∀ (s : Finset ℕ) r, r ∈ en s ↔ r ∈ s) (n : ℕ) : BuildOk en d R K n := by
  induction n with
  | zero =>
    intro m A res hres hmiss hf _
    have hsome : (m res).isSome := by
      by_contra hnone
      have hno : m res = none := by simpa using hnone
      have : res ∈ K.filter fun q => m q = none := by simp [hres, hno]
      have := Finset.card_pos.mpr ⟨res, this⟩
      unfold missing at hmiss
      omega
    exact ⟨m, by simp [build, hsome], fun _ _ h => h, hf, hsome, fun _ h => Or.inl h⟩
  | succ n ih =>
    intro m A res hres hmiss hf hA
    by_cases hsome : (m res).isSome
    · exact ⟨m, by simp [build, hsome], fun _ _ h => h, hf, hsome, fun _ h => Or.inl h⟩
    · have hno : m res = none := by simpa using hsome
      have hup := missing_update hres hno ∅
      obtain ⟨m', hm', hext, hf', ⟨s, hs, hsm⟩, hdom⟩ := buildLoop_spec n ih acyclic res A hA
        (en ((d res).getD ∅)) [] (Function.update m res (some ∅))
        (fun x hx => by
          have := (hd res hres x).mp ((hen _ x).mp hx)
          exact ⟨this, hK _ _ this⟩)
        (by omega)
        (by
          intro q t ht hq
          have hqr : q ≠ res := fun h => hq (Or.inr h)
          rw [Function.update_of_ne hqr] at ht
          exact hf q t ht (fun h => hq (Or.inl h)))
        ⟨∅, by simp, by simp⟩
      refine ⟨m', ?_, ?_, ?_, by simp [hs], ?_⟩
      · simp only [build, hsome]
        exact hm'
      · intro q t ht
        have hqr : q ≠ res := by rintro rfl; rw [hno] at ht; simp at ht
        exact hext q t hqr (by rw [Function.update_of_ne hqr]; exact ht)
      · intro q t ht hq r
        by_cases hqr : q = res
        · subst hqr
          rw [hs] at ht
          obtain rfl := Option.some.inj ht
          rw [hsm]
          simp only [List.nil_append]
          constructor
          · rintro ⟨x, hx, h⟩
            have hRx := (hd q hres x).mp ((hen _ x).mp hx)
            rcases h with rfl | h
            · exact .single hRx
            · exact .head hRx h
          · intro h
            obtain ⟨x, hx, hxr⟩ := TransGen.head'_iff.mp h
            refine ⟨x, (hen _ x).mpr ((hd q hres x).mpr hx), ?_⟩
            rcases reflTransGen_iff_eq_or_transGen.mp hxr with h | h
            · exact Or.inl h
            · exact Or.inr h
        · exact hf' q t ht (by rintro (h | h); exacts [hq h, hqr h]) r
      · intro q hq
        rcases hdom q hq with h | h
        · by_cases hqr : q = res
          · subst hqr; exact Or.inr hres
          · rw [Function.update_of_ne hqr] at h
            exact Or.inl h
        · exact Or.inr h

theorem order_spec (n : ℕ) (hb : BuildOk en d R K n) (order : List ℕ) :
    ∀ m : Rel, (∀ q ∈ order, q ∈ K) → missing K m ≤ n → Finished R m (fun _ => False) →
    ∃ m', order.foldlM (build en d n) m = some m' ∧ Finished R m' (fun _ => False) ∧
      (∀ q s, m q = some s → m' q = some s) ∧ (∀ q ∈ order, (m' q).isSome) ∧
      ∀ q, (m' q).isSome → (m q).isSome ∨ q ∈ K := by
  induction order with
  | nil => intro m _ _ hf; exact ⟨m, rfl, hf, fun _ _ h => h, by simp, fun _ h => Or.inl h⟩
  | cons x rest ih =>
    intro m hord hmiss hf
    obtain ⟨m1, hm1, hext, hf1, hsome, hdom⟩ := hb m _ x (hord x (by simp)) hmiss hf (by simp)
    obtain ⟨m2, hm2, hf2, hext2, hsome2, hdom2⟩ := ih m1 (fun q hq => hord q (by simp [hq]))
      (le_trans (missing_mono hext) hmiss) hf1
    refine ⟨m2, ?_, hf2, fun q s h => hext2 q s (hext q s h), ?_, ?_⟩
    · simp only [List.foldlM_cons, hm1]
      exact hm2
    · intro q hq
      rcases List.mem_cons.mp hq with rfl | hq
      · obtain ⟨s, hs⟩ := Option.isSome_iff_exists.mp hsome
        rw [hext2 q s hs]; rfl
      · exact hsome2 q hq
    · intro q hq
      rcases hdom2 q hq with h | h
      · exact hdom q h
      · exact Or.inr h
end

end Verif.Nested
