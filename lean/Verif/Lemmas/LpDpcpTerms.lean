/-
The LP-based analysis of the DPCP: sums of terms for some of the requests, and numbers of requests of a job.
-/
import Verif.Model.LpDpcp
import Verif.Lemmas.LpMpcp
import Verif.Lemmas.DpcpCount

namespace Verif.SR.Lp
open Verif.Spec Finset
open Verif.SR.Msrp (system ceilingOf)
open Verif.SR.Dpcp (Locality topology)

variable {info : Info} {m : ℕ} {R : LockRun info.length} {W : Fin info.length → ℕ} {H : ℕ}
variable {k : Fin info.length} {V : Finset ℕ} {sec : ℕ → Section info.length} {kind : ℕ → BlockingType}
  {X : Key → ℚ}

open Classical in
/-- The terms for some requests of some tasks are bounded by the number of their sections. -/
theorem Charge.termsFor_le (h : Charge info k V sec) (h1 : OneEntry info) {tys : List BlockingType} (hn : tys.Nodup)
    (hX : ∀ ty ∈ tys, ∀ x v r, X ⟨ty, x, v, r⟩ = share k V sec kind ty x r) (p : ℕ × TaskInfo → Prop) [DecidablePred p]
    (g : ℕ × TaskInfo → Request → Bool) :
    termSum X (termsFor (info.get k) tys ((tasks info).filter (fun t => p t)) g) ≤
      ((V.filter (fun u => p (((sec u).job.1 : ℕ), info.get (sec u).job.1) ∧ kind u ∈ tys ∧
        ∃ r ∈ (info.get (sec u).job.1).requests, (system info).For (sec u) r.resId ∧
          g (((sec u).job.1 : ℕ), info.get (sec u).job.1) r = true)).image sec).card := by
  have hnd : ∀ x : Fin info.length, (info.get x).requests.Nodup := fun x =>
    List.Nodup.of_map _ (h1 _ (List.get_mem info x))
  unfold termsFor
  rw [termSum_flatMap, tasks_sum]
  have hle : ∀ x : Fin info.length, termSum X (((info.get x).requests.filter (g ((x : ℕ), info.get x))).flatMap
      (fun r => terms (info.get k) tys ((x : ℕ), info.get x) r 1)) ≤
      ((∑ a ∈ ((info.get x).requests.filter (g ((x : ℕ), info.get x))).toFinset,
        ((slotsIn V sec kind tys x a.resId).image sec).card : ℕ) : ℚ) := by
    intro x
    rw [termSum_flatMap, Nat.cast_sum, List.sum_toFinset _ ((hnd x).filter _)]
    exact List.sum_le_sum (fun a ha => h.terms_le h1 hn hX (List.mem_filter.1 ha).1)
  refine (sum_le_sum (fun x _ => hle x)).trans ?_
  rw [← Nat.cast_sum]
  refine Nat.cast_le.2 (sum_disjoint_le ?_ ?_)
  · intro x hx a ha z hz
    obtain ⟨u, hu, rfl⟩ := mem_image.1 hz
    obtain ⟨h3, h4, h5, h6⟩ := mem_slotsIn.1 hu
    have h4' : (sec u).job.1 = x := Fin.ext h4
    obtain ⟨ha, hg⟩ := List.mem_filter.1 (List.mem_toFinset.1 ha)
    refine mem_image_of_mem _ (mem_filter.2 ⟨h3, ?_, h6, ?_⟩)
    · rw [h4']; exact (mem_filter.1 hx).2
    · rw [h4']; exact ⟨a, ha, h5, hg⟩
  · intro x hx a ha x' hx' a' ha' z hz hz'
    obtain ⟨u, hu, rfl⟩ := mem_image.1 hz
    obtain ⟨v, hv, he⟩ := mem_image.1 hz'
    obtain ⟨_, h4, h5, _⟩ := mem_slotsIn.1 hu
    obtain ⟨_, h4', h5', _⟩ := mem_slotsIn.1 hv
    rw [he] at h4' h5'
    have hxx : x = x' := Fin.ext (h4.symm.trans h4')
    subst hxx
    exact ⟨rfl, h1.eq_of_mem (List.mem_filter.1 (List.mem_toFinset.1 ha)).1
      (List.mem_filter.1 (List.mem_toFinset.1 ha')).1 (for_unique h5 h5')⟩

/-- Terms without slots. -/
theorem Charge.termsFor_zero (h : Charge info k V sec) (h1 : OneEntry info) {tys : List BlockingType} (hn : tys.Nodup)
    (hX : ∀ ty ∈ tys, ∀ x v r, X ⟨ty, x, v, r⟩ = share k V sec kind ty x r) (p : ℕ × TaskInfo → Prop) [DecidablePred p]
    (g : ℕ × TaskInfo → Request → Bool)
    (h0 : ∀ u ∈ V, p (((sec u).job.1 : ℕ), info.get (sec u).job.1) → kind u ∈ tys →
        ∀ r ∈ (info.get (sec u).job.1).requests, (system info).For (sec u) r.resId →
          g (((sec u).job.1 : ℕ), info.get (sec u).job.1) r ≠ true) :
    termSum X (termsFor (info.get k) tys ((tasks info).filter (fun t => p t)) g) = 0 := by
  classical
  apply le_antisymm
  · refine (h.termsFor_le h1 hn hX p g).trans (le_of_eq ?_)
    rw [Nat.cast_eq_zero, card_eq_zero, image_eq_empty, filter_eq_empty_iff]
    rintro u hu ⟨a1, a2, r, hr, a3, a4⟩
    exact h0 u hu a1 a2 r hr a3 a4
  · unfold termSum
    apply List.sum_nonneg
    intro a ha
    obtain ⟨t, ht, rfl⟩ := List.mem_map.1 ha
    unfold termsFor terms at ht
    simp only [List.mem_flatMap, List.mem_map] at ht
    obtain ⟨_, _, r, _, _, _, ty, hty, rfl⟩ := ht
    rw [one_mul, hX ty hty]
    exact share_nonneg

/-- The issued requests of a job, of some kind. -/
theorem sections_count (h : RequestRun m (system info) R) (g : Request → Bool) {j : Job info.length}
    {F : Finset (Section info.length)}
    (hF : ∀ s ∈ F, R.issued s ∧ s.job = j ∧ ∃ r, (info.get j.1).requests[s.idx]? = some r ∧ g r = true) :
    F.card ≤ (((info.get j.1).requests.filter g).map Request.num).sum := by
  classical
  have e : ∀ l : List Request, ((l.filter g).map Request.num).sum = (l.map (fun r => if g r then r.num else 0)).sum := by
    intro l
    induction l with
    | nil => rfl
    | cons a l ih =>
      rw [List.filter_cons, List.map_cons, List.sum_cons, ← ih]
      by_cases ha : g a = true
      · rw [if_pos ha, if_pos ha, List.map_cons, List.sum_cons]
      · rw [if_neg ha, if_neg ha, Nat.zero_add]
  rw [e, Fmlp.sum_requests]
  set L := (info.get j.1).requests with hL
  have hLget : ∀ d : Fin L.length, L[(d : ℕ)]? = some (L.get d) := by intro d; simp
  have hdec : ∀ s ∈ F, ∃ r, L[s.idx]? = some r ∧ g r = true ∧ s.inst < r.num := by
    intro s hs
    obtain ⟨h1, rfl, r, hr, hg⟩ := hF s hs
    refine ⟨r, hr, hg, ?_⟩
    obtain ⟨q', hq', hlt⟩ := h.declared s h1
    obtain ⟨r', hr', rfl⟩ := lock_req hq'
    rw [hr] at hr'
    cases hr'
    exact hlt
  have hfib : F.card = ∑ d : Fin L.length, (F.filter (fun s => s.idx = (d : ℕ))).card := by
    rw [← Finset.sum_range (fun d => (F.filter (fun s => s.idx = (d : ℕ))).card)]
    apply Finset.card_eq_sum_card_fiberwise
    intro s hs
    obtain ⟨r, hr, _⟩ := hdec s hs
    obtain ⟨hlt, _⟩ := List.getElem?_eq_some_iff.1 hr
    exact Finset.mem_coe.2 (Finset.mem_range.2 hlt)
  rw [hfib]
  apply Finset.sum_le_sum
  intro d _
  rcases (F.filter (fun s => s.idx = (d : ℕ))).eq_empty_or_nonempty with h0 | ⟨s0, hs0⟩
  · rw [h0]; simp
  obtain ⟨hs0, hd0⟩ := Finset.mem_filter.1 hs0
  obtain ⟨r0, hr0, hc0, _⟩ := hdec s0 hs0
  rw [hd0, hLget d] at hr0
  cases hr0
  rw [if_pos hc0, ← Finset.card_range (L.get d).num]
  apply Finset.card_le_card_of_injOn (fun s => s.inst)
  · intro s hs
    obtain ⟨hs, hd⟩ := Finset.mem_filter.1 (Finset.mem_coe.1 hs)
    obtain ⟨r, hr, _, hlt⟩ := hdec s hs
    rw [hd, hLget d] at hr
    cases hr
    exact Finset.mem_coe.2 (Finset.mem_range.2 hlt)
  · intro a ha b hb' hab
    obtain ⟨ha, hda⟩ := Finset.mem_filter.1 (Finset.mem_coe.1 ha)
    obtain ⟨hb', hdb⟩ := Finset.mem_filter.1 (Finset.mem_coe.1 hb')
    have h1 := (hF a ha).2.1
    have h2 := (hF b hb').2.1
    obtain ⟨aj, ai, an⟩ := a
    obtain ⟨bj, bi, bn⟩ := b
    simp only at h1 h2 hda hdb hab
    rw [h1, h2, hda, hdb, hab]

end Verif.SR.Lp
