/-
The busy-window argument for one processor of a partitioned system with self-suspensions, for busy
windows that contain only one job of the task under analysis, and what it means for accepted processors.
-/
import Verif.Lemmas.PartOne
import Verif.Lemmas.PartAccepted

namespace Verif.Spec
open Finset

variable {n m : ℕ} {w : Workload n} {σ : Schedule n} {C T : Fin n → ℕ}

open Classical in
/-- **The busy-window argument.**  If in every window of length `W` at most `B` slots serve
neither task `k` nor those in `hp`, then `W` bounds the response time.  Jobs of the tasks in `Z` are never suspended. -/
theorem pfp_one_susp (hs : w.Sporadic C T) (hv : ValidSchedule m w σ) (hT : ∀ i, 0 < T i) (k : Fin n)
    (hp : Finset (Fin n)) (Z : Fin n → Prop) (R : Fin n → ℕ) (W B q0 : ℕ)
    (hsusp : ∀ i ∈ hp, ¬ Z i → C i ≤ T i ∧ C i ≤ R i ∧
      ∀ q, w.release (i, q) + R i < w.release (k, q0) + W → Completed w σ (i, q) (w.release (i, q) + R i))
    (hZ : ∀ i, Z i → i ∈ hp)
    (hw : B + C k + ∑ i ∈ hp, cdiv (W + (if Z i then 0 else R i - C i)) (T i) * C i ≤ W) (hwT : W ≤ T k)
    (hidle : ∀ a q1, Window w σ k Z q0 q1 a (a + W) →
      (∀ t p, a ≤ t → t < a + W → Ready w σ (k, p) t → p = q1) → a + W ≤ w.release (k, q0) + W →
      ((Ico a (a + W)).filter (fun t => ∀ j ∈ σ t, j.1 ≠ k ∧ j.1 ∉ hp)).card ≤ B) :
    Completed w σ (k, q0) (w.release (k, q0) + W) := by
  by_contra hmiss
  have hWpos : 0 < W := by
    by_contra hc
    have hC : C k = 0 := by omega
    have := hs.wcet k q0
    exact hmiss (by unfold Completed; omega)
  let Q : ℕ → Prop := fun t => ∀ x : Job n, (x.1 = k ∨ Z x.1) →
    w.release x < t → Completed w σ x t
  have hQ0 : Q 0 := fun x _ hx => absurd hx (Nat.not_lt_zero _)
  set t0 := Nat.findGreatest Q (w.release (k, q0)) with ht0
  have hQt0 : Q t0 := Nat.findGreatest_spec (Nat.zero_le _) hQ0
  have ht0le : t0 ≤ w.release (k, q0) := Nat.findGreatest_le _
  have hex : ∃ q, t0 ≤ w.release (k, q) := ⟨q0, ht0le⟩
  set q1 := Nat.find hex with hq1
  have hq1le : q1 ≤ q0 := Nat.find_min' hex ht0le
  have hq1rel : t0 ≤ w.release (k, q1) := Nat.find_spec hex
  have hbusy : ∀ y, t0 < y → y ≤ w.release (k, q0) →
      ∃ x : Job n, (x.1 = k ∨ Z x.1) ∧ w.release x < y ∧ ¬ Completed w σ x y := by
    intro y hy1 hy2
    by_contra hno
    push Not at hno
    have := Nat.le_findGreatest (P := Q) hy2 hno
    omega
  have hnext : ∀ p, q1 < p → t0 + W ≤ w.release (k, p) := by
    intro p hp
    have h1 := hs.separated k q1
    have h2 := release_mono hs k (show q1 + 1 ≤ p from hp)
    omega
  -- a job that is not complete after the window
  obtain ⟨x, hx, hxr, hxc⟩ : ∃ x : Job n, (x.1 = k ∨ Z x.1) ∧ w.release x < t0 + W ∧
      ¬ Completed w σ x (t0 + W) := by
    by_cases hq : t0 + W ≤ w.release (k, q0)
    · exact hbusy (t0 + W) (by omega) hq
    · exact ⟨(k, q0), Or.inl rfl, by omega, fun hc => hmiss (hc.mono (by omega))⟩
  have hown : ∀ t p, t0 ≤ t → t < t0 + W → Ready w σ (k, p) t → p = q1 := by
    intro t p h1 h2 hr
    have h3 : q1 ≤ p := by
      apply Nat.find_min' hex
      by_contra hc
      exact hr.1.2 ((hQt0 (k, p) (Or.inl rfl) (by omega)).mono h1)
    by_contra hne
    have := hnext p (by omega)
    have := hr.1.1
    omega
  have hwin : Window w σ k Z q0 q1 t0 (t0 + W) := by
    refine ⟨ht0le, hq1le, hbusy, fun hc => hmiss (hc.mono (by omega)), fun t p h1 h2 hr => ?_⟩
    have := hown t p h1 h2 hr
    omega
  have hI := hidle t0 q1 hwin hown (by omega)
  set e := t0 + W with he
  let serv : Finset ℕ := (Ico t0 e).filter (fun t => (k, q1) ∈ σ t)
  let other : Fin n → Finset ℕ := fun i => (Ico t0 e).filter (fun t => ∃ q, (i, q) ∈ σ t)
  have hcover : Ico t0 e ⊆ (Ico t0 e).filter (fun t => ∀ j ∈ σ t, j.1 ≠ k ∧ j.1 ∉ hp) ∪
      (serv ∪ (hp.erase k).biUnion other) := by
    intro t ht
    have ht' := mem_Ico.1 ht
    by_cases hall : ∀ j ∈ σ t, j.1 ≠ k ∧ j.1 ∉ hp
    · exact mem_union_left _ (mem_filter.2 ⟨ht, hall⟩)
    · apply mem_union_right
      push Not at hall
      obtain ⟨⟨i, q⟩, hj, hi⟩ := hall
      by_cases hik : i = k
      · subst hik
        apply mem_union_left
        have := hown t q ht'.1 ht'.2 (hv.ready t _ hj)
        subst this
        exact mem_filter.2 ⟨ht, hj⟩
      · apply mem_union_right
        rw [mem_biUnion]
        exact ⟨i, mem_erase.2 ⟨hik, hi hik⟩, mem_filter.2 ⟨ht, q, hj⟩⟩
  have hcard := card_le_card hcover
  rw [Nat.card_Ico] at hcard
  have hu1 := card_union_le ((Ico t0 e).filter (fun t => ∀ j ∈ σ t, j.1 ≠ k ∧ j.1 ∉ hp))
    (serv ∪ (hp.erase k).biUnion other)
  have hu2 := card_union_le serv ((hp.erase k).biUnion other)
  have hu3 : ((hp.erase k).biUnion other).card ≤ ∑ i ∈ hp.erase k, (other i).card := card_biUnion_le
  have hserv : serv.card ≤ C k := (serviceIn_le_exec hv (k, q1) t0 e).trans (hs.wcet k q1)
  have hoth : ∀ i ∈ hp.erase k, (other i).card ≤ cdiv (W + (if Z i then 0 else R i - C i)) (T i) * C i := by
    intro i hi
    have hlen : e - t0 = W := by omega
    by_cases hz : Z i
    · rw [if_pos hz]
      have := part_fresh hs hv hT i (s := t0) (e := e) (fun q hq => hQt0 (i, q) (Or.inr hz) hq)
      rwa [hlen] at this
    · rw [if_neg hz]
      obtain ⟨c1, c2, c3⟩ := hsusp i (mem_erase.1 hi).2 hz
      have := part_carry hs hv hT i c1 c2 (s := t0) (e := e) (H := w.release (k, q0) + W) (by omega) c3
      rwa [hlen] at this
  have hsub : ∑ i ∈ hp.erase k, cdiv (W + (if Z i then 0 else R i - C i)) (T i) * C i ≤
      ∑ i ∈ hp, cdiv (W + (if Z i then 0 else R i - C i)) (T i) * C i :=
    sum_le_sum_of_subset (erase_subset _ _)
  by_cases hxk : x.1 = k
  · obtain ⟨x1, x2⟩ := x
    simp only at hxk
    subst hxk
    have hx2 : x2 = q1 := by
      have h3 : q1 ≤ x2 := by
        apply Nat.find_min' hex
        by_contra hc
        exact hxc ((hQt0 (x1, x2) (Or.inl rfl) (by omega)).mono (by omega))
      by_contra hne
      have := hnext x2 (by omega)
      omega
    rw [hx2] at hxc
    have h1 : serviceIn σ (x1, q1) t0 e ≤ service σ (x1, q1) e := by
      have := service_add σ (x1, q1) (show t0 ≤ e by omega)
      omega
    have h2 : service σ (x1, q1) e < w.exec (x1, q1) := not_le.1 hxc
    have h3 := hs.wcet x1 q1
    have h4 : serv.card = serviceIn σ (x1, q1) t0 e := rfl
    have h5 := sum_le_sum hoth
    omega
  · have hxz : Z x.1 := hx.resolve_left hxk
    have hxh : x.1 ∈ hp.erase k := mem_erase.2 ⟨hxk, hZ _ hxz⟩
    have hlt : (other x.1).card < cdiv (W + (if Z x.1 then 0 else R x.1 - C x.1)) (T x.1) * C x.1 := by
      rw [if_pos hxz]
      have := part_fresh_lt hs hv hT x.1 (s := t0) (e := e) (q0 := x.2)
        (fun q hq => hQt0 (x.1, q) (Or.inr hxz) hq) hxr (by omega) hxc
      rw [show e - t0 = W by omega] at this
      exact this
    have h5 := sum_lt_sum hoth ⟨x.1, hxh, hlt⟩
    omega

end Verif.Spec

namespace Verif.SR
open Spec
open Verif.SR.Msrp (system)

open Classical in
/-- **Partitioned fixed-priority scheduling**: accepted processors and bounds that cover all other delays in a window
with one job of the task imply that response times are bounded. -/
theorem part_one_safe (info : Info) (rem loc : Fin info.length → ℕ) (fuel : ℕ) (hT : ∀ t ∈ info, 0 < t.period)
    (hprio : info.Pairwise (fun a b => a.cluster = b.cluster → a.priority < b.priority))
    (done : ℕ → List (Fp.FpTask × ℚ))
    (h : ∀ t ∈ info, Fp.boundResponseTimes fuel 1 (partTasks info rem loc t.cluster) = some (true, done t.cluster)) :
    ∃ W : Fin info.length → ℕ,
      (∀ t ∈ info, (done t.cluster).map Prod.snd =
        ((List.finRange info.length).filter (fun i => (info.get i).cluster = t.cluster)).map (fun i => (W i : ℚ))) ∧
      (∀ i, W i ≤ (info.get i).deadline ∧ W i ≤ (info.get i).period ∧ rem i + loc i + (info.get i).cost ≤ W i) ∧
      ∀ (m : ℕ) (R : LockRun info.length), RequestRun m (system info) R →
        (∀ (H : ℕ) (k : Fin info.length) (q0 q1 a : ℕ), BoundedBefore R.work R.sched W H →
          Window R.work R.sched k (fun i => i ∈ higher info k ∧ rem i = 0) q0 q1 a (a + W k) →
          (∀ t p, a ≤ t → t < a + W k → Ready R.work R.sched (k, p) t → p = q1) → a + W k ≤ H →
          ((Finset.Ico a (a + W k)).filter (fun t => ∀ j ∈ R.sched t, j.1 ≠ k ∧ j.1 ∉ higher info k)).card ≤
            rem k + loc k) →
        ∀ H, BoundedBefore R.work R.sched W H := by
  have hacc := fun t (ht : t ∈ info) => part_accepted info rem loc t.cluster fuel hT hprio (done t.cluster) (h t ht)
  have hacc' : ∀ i : Fin info.length, ∃ W : Fin info.length → ℕ, _ := fun i => hacc (info.get i) (List.get_mem info i)
  choose Wf hWf using hacc'
  have hsame : ∀ i x : Fin info.length, (info.get x).cluster = (info.get i).cluster → Wf i x = Wf x x := by
    intro i x hx
    have h1 := (hWf i).1
    have h2 := (hWf x).1
    rw [hx] at h2
    rw [h2] at h1
    have := List.map_inj_left.1 h1 x (List.mem_filter.2 ⟨List.mem_finRange x, by simpa using hx⟩)
    exact_mod_cast this.symm
  have hfix : ∀ x : Fin info.length, rem x + loc x + (info.get x).cost + ∑ i ∈ higher info x,
      cdiv (Wf x x + (if rem i = 0 then 0 else Wf i i - (info.get i).cost))
        (info.get i).period * (info.get i).cost ≤ Wf x x := by
    intro x
    refine le_trans (le_of_eq ?_) ((hWf x).2 x rfl).2.2
    congr 1
    apply Finset.sum_congr rfl
    intro i hi
    obtain ⟨_, hi1, _⟩ := Finset.mem_filter.1 hi
    rw [hsame x i hi1]
  have hWT : ∀ i, Wf i i ≤ (info.get i).period := fun i => ((hWf i).2 i rfl).2.1
  refine ⟨fun i => Wf i i, ?_, ?_, ?_⟩
  · intro t ht
    obtain ⟨i, rfl⟩ := List.get_of_mem ht
    rw [(hWf i).1]
    apply List.map_congr_left
    intro x hx
    have hx := (List.mem_filter.1 hx).2
    simp only [decide_eq_true_eq] at hx
    rw [hsame i x hx]
  · intro i
    have := hfix i
    exact ⟨((hWf i).2 i rfl).1, hWT i, by beta_reduce; omega⟩
  · intro m R hR hidle H
    induction H with
    | zero => intro j hj; omega
    | succ H ih =>
      rintro ⟨k, q0⟩ hj
      rcases Nat.lt_or_ge (R.work.release (k, q0) + Wf k k) H with h1 | h1
      · exact ih (k, q0) h1
      have hH : R.work.release (k, q0) + Wf k k = H := by
        simp only at hj
        omega
      have hC : ∀ i, (info.get i).cost ≤ Wf i i := by
        intro i
        have := hfix i
        omega
      refine pfp_one_susp hR.sporadic hR.valid (fun i => hT _ (List.get_mem info i)) k (higher info k)
        (fun i => i ∈ higher info k ∧ rem i = 0) (fun i => Wf i i) (Wf k k) (rem k + loc k) q0
        ?_ (fun i hi => hi.1) ?_ (hWT k) ?_
      · intro i _ _
        refine ⟨(hC i).trans (hWT i), hC i, fun q hq => ih (i, q) ?_⟩
        rw [hH] at hq
        exact hq
      · refine le_trans (le_of_eq ?_) (hfix k)
        congr 1
        apply Finset.sum_congr rfl
        intro i hi
        by_cases hh : rem i = 0
        · rw [if_pos ⟨hi, hh⟩, if_pos hh]
          rfl
        · rw [if_neg (fun h => hh h.2), if_neg hh]
          rfl
      · intro a q1 hwin hown hle
        rw [hH] at hle
        exact hidle H k q0 q1 a ih hwin hown hle

end Verif.SR
