/-
When the sets of locks that are held on all paths can be computed.
-/
import Verif.Lemmas.LpNested
import Verif.Lemmas.NestedCs

namespace Verif.SR.Lp
open Verif.Spec
open Verif.Nested (CritSec TaskCs Built)

variable {info : Info} {css : List TaskCs} {ti : TaskInfo}

theorem guaranteedHeld_length : ∀ (n : ℕ) {gh : List (Finset ℕ)} {paths : CsPaths},
    guaranteedHeld info css ti n = some (gh, paths) → gh.length = n := by
  intro n
  induction n with
  | zero =>
    intro gh paths h
    cases h
    rfl
  | succ n ih =>
    intro gh paths h
    unfold guaranteedHeld at h
    split at h
    · cases h
    · rename_i gh' paths' h'
      split at h
      · cases h
      · cases h
        rw [List.length_append, ih h']
        rfl

theorem guaranteedFor_isSome {gh : List (Finset ℕ)} : ∀ (ss : List TaskSec),
    (∀ s ∈ ss, ∀ g, (updateGuaranteed css ti gh g s).isSome) → ∀ st, (guaranteedFor css ti gh ss st).isSome := by
  intro ss
  induction ss with
  | nil => intro _ st; rfl
  | cons s ss ih =>
    intro h st
    have h1 := h s (List.mem_cons_self ..) st.1
    have h2 := fun t ht => h t (List.mem_cons_of_mem _ ht)
    unfold guaranteedFor
    split
    · rename_i hn
      rw [hn] at h1
      cases h1
    · exact ih h2 _
    · exact ih h2 _

theorem isSome_of_guaranteedFor {gh : List (Finset ℕ)} : ∀ (ss : List TaskSec) (st : Finset ℕ × CsPaths),
    (guaranteedFor css ti gh ss st).isSome → ∀ s ∈ ss, ∃ g, (updateGuaranteed css ti gh g s).isSome := by
  intro ss
  induction ss with
  | nil => intro _ _ s hs; simp at hs
  | cons s ss ih =>
    intro st h t ht
    unfold guaranteedFor at h
    rcases List.mem_cons.1 ht with rfl | ht
    · refine ⟨st.1, ?_⟩
      split at h
      · cases h
      · rename_i hn
        rw [hn]
        rfl
      · rename_i hn
        rw [hn]
        rfl
    · split at h
      · cases h
      · exact ih _ h t ht
      · exact ih _ h t ht

theorem guaranteedHeld_isSome (n : ℕ) (h : ∀ q < n, ∀ gh : List (Finset ℕ), gh.length = q →
    ∀ s ∈ taskSecs css (tasks info), s.2.1.res = q → ∀ g, (updateGuaranteed css ti gh g s).isSome) :
    (guaranteedHeld info css ti n).isSome := by
  induction n with
  | zero => rfl
  | succ n ih =>
    have h1 := ih (fun q hq => h q (by omega))
    obtain ⟨⟨gh, paths⟩, hg⟩ := Option.isSome_iff_exists.1 h1
    unfold guaranteedHeld
    rw [hg]
    have h2 := guaranteedFor_isSome (css := css) (ti := ti) (gh := gh)
      ((taskSecs css (tasks info)).filter (fun s => s.2.1.res = n)) (fun s hs g =>
        h n (by omega) gh (guaranteedHeld_length n hg) s (List.mem_filter.1 hs).1
          (by simpa using (List.mem_filter.1 hs).2) g) (Finset.range n, paths)
    obtain ⟨⟨ghq, paths'⟩, hg'⟩ := Option.isSome_iff_exists.1 h2
    simp only [hg', Option.isSome_some]

theorem isSome_of_guaranteedHeld (n : ℕ) (h : (guaranteedHeld info css ti n).isSome) :
    ∀ q < n, ∀ s ∈ taskSecs css (tasks info), s.2.1.res = q →
      ∃ gh : List (Finset ℕ), gh.length = q ∧ ∃ g, (updateGuaranteed css ti gh g s).isSome := by
  induction n with
  | zero => intro q hq; omega
  | succ n ih =>
    intro q hq s hs hr
    unfold guaranteedHeld at h
    split at h
    · cases h
    · rename_i gh paths hg
      by_cases hqn : q < n
      · exact ih (by rw [hg]; rfl) q hqn s hs hr
      · have : q = n := by omega
        subst this
        refine ⟨gh, guaranteedHeld_length _ hg, ?_⟩
        split at h
        · cases h
        · rename_i ghq paths' hf
          exact isSome_of_guaranteedFor _ _ (by rw [hf]; rfl) s (List.mem_filter.2 ⟨hs, by simpa using hr⟩)

theorem guaranteedLoop_isSome {gh : List (Finset ℕ)} {cs : TaskCs} (hb : Built cs)
    (hw : ∀ (d e : ℕ) (c p : CritSec), cs[d]? = some c → c.outer = some e → cs[e]? = some p → p.res ≤ c.res) :
    ∀ (n : ℕ) (o : Option ℕ) (acc : Finset ℕ),
      (∀ e, o = some e → e < n ∧ ∃ p, cs[e]? = some p ∧ p.res < gh.length) →
      (guaranteedLoop gh cs n o acc).isSome := by
  intro n
  induction n with
  | zero =>
    intro o acc h
    cases o with
    | none => rfl
    | some e => exact absurd (h e rfl).1 (by omega)
  | succ n ih =>
    intro o acc h
    cases o with
    | none => rfl
    | some e =>
      obtain ⟨h1, p, hp, hr⟩ := h e rfl
      unfold guaranteedLoop
      simp only [hp, List.getElem?_eq_getElem hr]
      apply ih
      intro e' he'
      have hlt := hb.outer_lt e p e' hp he'
      have hlen : e < cs.length := (List.getElem?_eq_some_iff.1 hp).1
      have hp' : cs[e']? = some cs[e'] := List.getElem?_eq_getElem (by omega)
      refine ⟨by omega, _, hp', ?_⟩
      have := hw e e' p _ hp he' hp'
      omega

end Verif.SR.Lp
