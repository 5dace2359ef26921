/-
The busy-window argument for one processor of a partitioned system without self-suspensions: a busy
window contains only one job of the task under analysis.
-/
import Verif.Lemmas.PartFp

namespace Verif.Spec
open Finset

variable {n m : ℕ} {w : Workload n} {σ : Schedule n} {C T : Fin n → ℕ}

/-- Work of a task whose jobs released before `s` are finished at `s`, if one of its jobs is
not finished at `e`. -/
theorem part_fresh_lt (hs : w.Sporadic C T) (hv : ValidSchedule m w σ) (hT : ∀ i, 0 < T i) (i : Fin n) {s e : ℕ}
    (hfresh : ∀ q, w.release (i, q) < s → Completed w σ (i, q) s) {q0 : ℕ} (h0 : w.release (i, q0) < e)
    (hse : s ≤ e) (hinc : ¬ Completed w σ (i, q0) e) :
    taskSlots σ i s e < cdiv (e - s) (T i) * C i := by
  classical
  set P := (range (e + 1)).filter (fun q => s ≤ w.release (i, q) ∧ w.release (i, q) < e) with hPdef
  have h1 := taskSlots_le σ i s e P (by
    intro t ht1 ht2 q hq
    have hr := hv.ready t _ hq
    have hrel := hr.1.1
    have := le_release hs i (hT i) q
    rw [hPdef, mem_filter, mem_range]
    refine ⟨by omega, ?_, by omega⟩
    by_contra hc
    exact hr.1.2 ((hfresh q (by omega)).mono ht1))
  have hq0 : q0 ∈ P := by
    have := le_release hs i (hT i) q0
    rw [hPdef, mem_filter, mem_range]
    refine ⟨by omega, ?_, h0⟩
    by_contra hc
    exact hinc ((hfresh q0 (by omega)).mono hse)
  refine lt_of_le_of_lt h1 ?_
  have h2 : ∑ q ∈ P, serviceIn σ (i, q) s e < ∑ _q ∈ P, C i := by
    refine sum_lt_sum (fun q _ => (serviceIn_le_exec hv _ _ _).trans (hs.wcet i q)) ⟨q0, hq0, ?_⟩
    have h3 : serviceIn σ (i, q0) s e ≤ service σ (i, q0) e := by
      have := service_add σ (i, q0) hse
      omega
    exact lt_of_le_of_lt h3 (lt_of_lt_of_le (not_le.1 hinc) (hs.wcet i q0))
  rw [sum_const, smul_eq_mul] at h2
  refine lt_of_lt_of_le h2 (Nat.mul_le_mul_right _ ?_)
  have hmem : ∀ q ∈ P, s ≤ w.release (i, q) ∧ w.release (i, q) < e := fun q hq => (mem_filter.1 hq).2
  have hq' := hmem q0 hq0
  have := card_released_le hs i (hT i) P (a := s) (b := e - 1) (by
    intro q hq
    have h1 := hmem q hq
    omega) (by omega)
  refine this.trans ?_
  rw [← succ_div_eq_cdiv (hT i) (by omega)]
  have := Nat.div_le_div_right (c := T i) (show e - 1 - s ≤ e - s - 1 by omega)
  omega

/-- A busy window of task `k` and the tasks `hp` from `a` to `e`, with one job of `k`. -/
structure OneWindow (w : Workload n) (σ : Schedule n) (k : Fin n) (hp : Finset (Fin n)) (q a e : ℕ) : Prop where
  busy : ∀ t, a ≤ t → t < e → ∃ x : Job n, (x.1 = k ∨ x.1 ∈ hp) ∧ Pending w σ x t
  fresh : ∀ x : Job n, (x.1 = k ∨ x.1 ∈ hp) → w.release x < a → Completed w σ x a
  own : ∀ t p, a ≤ t → t < e → Ready w σ (k, p) t → p = q

open Classical in
/-- **The busy-window argument.**  If in every window of length `W` at most `B` slots serve
neither task `k` nor those in `hp`, then `W` bounds the response time. -/
theorem pfp_one (hs : w.Sporadic C T) (hv : ValidSchedule m w σ) (hT : ∀ i, 0 < T i) (k : Fin n)
    (hp : Finset (Fin n)) (W B q0 : ℕ)
    (hw : B + C k + ∑ i ∈ hp, cdiv W (T i) * C i ≤ W) (hwT : W ≤ T k)
    (hidle : ∀ a q, OneWindow w σ k hp q a (a + W) → a + W ≤ w.release (k, q0) + W →
      ((Ico a (a + W)).filter (fun t => ∀ j ∈ σ t, j.1 ≠ k ∧ j.1 ∉ hp)).card ≤ B) :
    Completed w σ (k, q0) (w.release (k, q0) + W) := by
  by_contra hmiss
  have hWpos : 0 < W := by
    by_contra hc
    have hC : C k = 0 := by omega
    have := hs.wcet k q0
    exact hmiss (by unfold Completed; omega)
  let Q : ℕ → Prop := fun t => ∀ x : Job n, (x.1 = k ∨ x.1 ∈ hp) →
    w.release x < t → Completed w σ x t
  have hQ0 : Q 0 := fun x _ hx => absurd hx (Nat.not_lt_zero _)
  set t0 := Nat.findGreatest Q (w.release (k, q0)) with ht0
  have hQt0 : Q t0 := Nat.findGreatest_spec (Nat.zero_le _) hQ0
  have ht0le : t0 ≤ w.release (k, q0) := Nat.findGreatest_le _
  have hex : ∃ q, t0 ≤ w.release (k, q) := ⟨q0, ht0le⟩
  set q1 := Nat.find hex with hq1
  have hq1le : q1 ≤ q0 := Nat.find_min' hex ht0le
  have hq1rel : t0 ≤ w.release (k, q1) := Nat.find_spec hex
  have hbusy : ∀ y, t0 < y → y ≤ w.release (k, q0) →
      ∃ x : Job n, (x.1 = k ∨ x.1 ∈ hp) ∧ w.release x < y ∧ ¬ Completed w σ x y := by
    intro y hy1 hy2
    by_contra hno
    push Not at hno
    have := Nat.le_findGreatest (P := Q) hy2 hno
    omega
  have hnext : ∀ p, q1 < p → t0 + W ≤ w.release (k, p) := by
    intro p hp
    have h1 := hs.separated k q1
    have h2 := release_mono hs k (show q1 + 1 ≤ p from hp)
    omega
  -- a job that is not complete after the window
  obtain ⟨x, hx, hxr, hxc⟩ : ∃ x : Job n, (x.1 = k ∨ x.1 ∈ hp) ∧ w.release x < t0 + W ∧
      ¬ Completed w σ x (t0 + W) := by
    by_cases hq : t0 + W ≤ w.release (k, q0)
    · exact hbusy (t0 + W) (by omega) hq
    · exact ⟨(k, q0), Or.inl rfl, by omega, fun hc => hmiss (hc.mono (by omega))⟩
  have hwin : OneWindow w σ k hp q1 t0 (t0 + W) := by
    refine ⟨fun t h1 h2 => ?_, hQt0, fun t p h1 h2 hr => ?_⟩
    · by_cases hr : w.release (k, q0) ≤ t
      · exact ⟨(k, q0), Or.inl rfl, hr, fun hc => hmiss (hc.mono (by omega))⟩
      · obtain ⟨x, hx, h3, h4⟩ := hbusy (t + 1) (by omega) (by omega)
        exact ⟨x, hx, by omega, fun hc => h4 (hc.mono (by omega))⟩
    · have h3 : q1 ≤ p := by
        apply Nat.find_min' hex
        by_contra hc
        exact hr.1.2 ((hQt0 (k, p) (Or.inl rfl) (by omega)).mono h1)
      by_contra hne
      have := hnext p (by omega)
      have := hr.1.1
      omega
  have hI := hidle t0 q1 hwin (by omega)
  set e := t0 + W with he
  let serv : Finset ℕ := (Ico t0 e).filter (fun t => (k, q1) ∈ σ t)
  let other : Fin n → Finset ℕ := fun i => (Ico t0 e).filter (fun t => ∃ q, (i, q) ∈ σ t)
  have hcover : Ico t0 e ⊆ (Ico t0 e).filter (fun t => ∀ j ∈ σ t, j.1 ≠ k ∧ j.1 ∉ hp) ∪
      (serv ∪ (hp.erase k).biUnion other) := by
    intro t ht
    have ht' := mem_Ico.1 ht
    by_cases hall : ∀ j ∈ σ t, j.1 ≠ k ∧ j.1 ∉ hp
    · exact mem_union_left _ (mem_filter.2 ⟨ht, hall⟩)
    · apply mem_union_right
      push Not at hall
      obtain ⟨⟨i, q⟩, hj, hi⟩ := hall
      by_cases hik : i = k
      · subst hik
        apply mem_union_left
        have := hwin.own t q ht'.1 ht'.2 (hv.ready t _ hj)
        subst this
        exact mem_filter.2 ⟨ht, hj⟩
      · apply mem_union_right
        rw [mem_biUnion]
        exact ⟨i, mem_erase.2 ⟨hik, hi hik⟩, mem_filter.2 ⟨ht, q, hj⟩⟩
  have hcard := card_le_card hcover
  rw [Nat.card_Ico] at hcard
  have hu1 := card_union_le ((Ico t0 e).filter (fun t => ∀ j ∈ σ t, j.1 ≠ k ∧ j.1 ∉ hp))
    (serv ∪ (hp.erase k).biUnion other)
  have hu2 := card_union_le serv ((hp.erase k).biUnion other)
  have hu3 : ((hp.erase k).biUnion other).card ≤ ∑ i ∈ hp.erase k, (other i).card := card_biUnion_le
  have hserv : serv.card ≤ C k := (serviceIn_le_exec hv (k, q1) t0 e).trans (hs.wcet k q1)
  have hoth : ∀ i ∈ hp.erase k, (other i).card ≤ cdiv W (T i) * C i := by
    intro i hi
    have := part_fresh hs hv hT i (s := t0) (e := e) (fun q hq => hQt0 (i, q) (Or.inr (mem_erase.1 hi).2) hq)
    rw [show e - t0 = W by omega] at this
    exact this
  have hsub : ∑ i ∈ hp.erase k, cdiv W (T i) * C i ≤ ∑ i ∈ hp, cdiv W (T i) * C i :=
    sum_le_sum_of_subset (erase_subset _ _)
  by_cases hxk : x.1 = k
  · obtain ⟨x1, x2⟩ := x
    simp only at hxk
    subst hxk
    have hx2 : x2 = q1 := by
      have h3 : q1 ≤ x2 := by
        apply Nat.find_min' hex
        by_contra hc
        exact hxc ((hQt0 (x1, x2) (Or.inl rfl) (by omega)).mono (by omega))
      by_contra hne
      have := hnext x2 (by omega)
      omega
    rw [hx2] at hxc
    have h1 : serviceIn σ (x1, q1) t0 e ≤ service σ (x1, q1) e := by
      have := service_add σ (x1, q1) (show t0 ≤ e by omega)
      omega
    have h2 : service σ (x1, q1) e < w.exec (x1, q1) := not_le.1 hxc
    have h3 := hs.wcet x1 q1
    have h4 : serv.card = serviceIn σ (x1, q1) t0 e := rfl
    have h5 := sum_le_sum hoth
    omega
  · have hxh : x.1 ∈ hp.erase k := mem_erase.2 ⟨hxk, hx.resolve_left hxk⟩
    have hlt : (other x.1).card < cdiv W (T x.1) * C x.1 := by
      have := part_fresh_lt hs hv hT x.1 (s := t0) (e := e) (q0 := x.2)
        (fun q hq => hQt0 (x.1, q) (Or.inr (mem_erase.1 hxh).2) hq) hxr (by omega) hxc
      rw [show e - t0 = W by omega] at this
      exact this
    have h5 := sum_lt_sum hoth ⟨x.1, hxh, hlt⟩
    omega

end Verif.Spec
