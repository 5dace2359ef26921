/-
Safety of Baruah's global EDF test (`schedcat/sched/edf/bar.py`).
-/
import Verif.Props.GlobalEdf

namespace Verif.GEdf
open Verif.Spec Finset

theorem zipIdx_eq {α : Type} (l : List α) :
    l.zipIdx = (List.finRange l.length).map (fun i => (l.get i, (i : ℕ))) := by
  apply List.ext_getElem <;> simp

theorem sum_finRange_map {n : ℕ} {M : Type} [AddCommMonoid M] (f : Fin n → M) :
    ((List.finRange n).map f).sum = ∑ i, f i := by
  rw [← List.sum_ofFn, List.ofFn_eq_map]

/-- The sum over a few positions is at most the sum of the largest values. -/
theorem sum_finset_le_topsum {α : Type} {n c : ℕ} (g : Fin n → α) (f : α → ℚ)
    (hf : ∀ i, 0 ≤ f (g i)) (S : Finset (Fin n)) (hS : S.card ≤ c) :
    ∑ i ∈ S, f (g i) ≤ topsum ((List.finRange n).map g) f c := by
  classical
  have h := C06_topsum_upper_nonneg ((List.finRange n).map g) f c
    (by intro x hx; obtain ⟨i, _, rfl⟩ := List.mem_map.1 hx; exact hf i)
    (((List.finRange n).filter (fun i => i ∈ S)).map g)
    (List.Sublist.subperm ((List.filter_sublist).map g))
    (by
      rw [List.length_map]
      refine le_trans (le_of_eq ?_) hS
      rw [← List.toFinset_card_of_nodup ((List.nodup_finRange n).filter _)]
      congr 1
      ext i; simp)
  refine le_trans (le_of_eq ?_) h
  rw [List.map_map]
  have : ∑ i ∈ S, f (g i) = ∑ i ∈ ((List.finRange n).filter (fun i => i ∈ S)).toFinset, f (g i) := by
    apply sum_congr _ (fun _ _ => rfl)
    ext i; simp
  rw [this, List.sum_toFinset _ ((List.nodup_finRange n).filter _)]
  rfl

theorem dbf_eq_njobs (t : ITask) (hT : 0 < t.period) {L : ℕ} (hL : 0 < L) :
    t.toTask.dbf L = ((njobs t.period t.deadline L * t.cost : ℕ) : ℚ) := by
  unfold SporadicTask.dbf ITask.toTask njobs
  simp only
  have hLq : ¬ (L : ℚ) ≤ 0 := by
    have : (0 : ℚ) < L := by exact_mod_cast hL
    linarith
  rw [if_neg hLq]
  have hfl : ⌊((L : ℚ) - t.deadline) / t.period⌋ = ((L : ℤ) - t.deadline) / t.period := by
    rw [← Rat.floor_intCast_div_natCast]; push_cast; rfl
  rw [hfl]
  split_ifs with h
  · have : ((L : ℤ) - t.deadline) / t.period + 1 ≤ 0 := by
      have : ((L : ℤ) - t.deadline) / t.period < 0 := Int.ediv_neg_of_neg_of_pos (by omega) (by omega)
      omega
    have h2 : ((((L : ℤ) - t.deadline) / t.period : ℤ) : ℚ) + 1 ≤ 0 := by exact_mod_cast this
    rw [max_eq_left]
    · simp
    · have : (0 : ℚ) ≤ t.cost := by positivity
      nlinarith
  · have : ((L : ℤ) - t.deadline) / t.period = (((L - t.deadline) / t.period : ℕ) : ℤ) := by
      push_cast
      rw [Nat.cast_sub (by omega)]
    rw [this, Int.cast_natCast, max_eq_right]
    · rw [Nat.cast_mul, Nat.cast_add, Nat.cast_one]
    · positivity

theorem barDbf_eq_gwork (t : ITask) (L : ℕ) :
    barDbf t.toTask L = (gwork t.cost t.period L : ℚ) := by
  unfold barDbf pyMod ITask.toTask gwork
  simp only
  rw [Rat.floor_natCast_div_natCast]
  have hmod : (L : ℚ) - ((L : ℤ) / (t.period : ℤ) : ℤ) * t.period = ((L % t.period : ℕ) : ℚ) := by
    have := Nat.div_add_mod L t.period
    have h2 : ((t.period * (L / t.period) + L % t.period : ℕ) : ℚ) = L := by exact_mod_cast this
    rw [← Int.natCast_div, Int.cast_natCast]
    push_cast at h2
    linarith
  rw [hmod, ← Int.natCast_div, Int.cast_natCast]
  push_cast
  rfl

theorem le_gwork {c T L : ℕ} (hT : 0 < T) (hcT : c ≤ T) (h : c ≤ L) : c ≤ gwork c T L := by
  refine le_trans ?_ (gwork_mono hT hcT h)
  rcases Nat.lt_or_ge c T with h1 | h1
  · rw [gwork_lt h1]; omega
  · have : T = c := by omega
    subst this
    unfold gwork
    rw [Nat.div_self hT]; omega

theorem gwork_le_njobs {c T D L : ℕ} (hT : 0 < T) (hDT : D ≤ T) :
    gwork c T L ≤ njobs T D L * c + c := by
  unfold gwork njobs
  have h1 : min c (L % T) ≤ c := Nat.min_le_left _ _
  have h2 : L / T ≤ if L < D then 0 else (L - D) / T + 1 := by
    split_ifs with h
    · rw [Nat.div_eq_of_lt (by omega)]
    · rw [← Nat.add_div_right _ hT]
      exact Nat.div_le_div_right (by omega)
  have := Nat.mul_le_mul_right c h2
  omega

theorem njobs_mul_le {c T D L : ℕ} (hT : 0 < T) (hDT : D ≤ T) :
    ((njobs T D L * c : ℕ) : ℚ) ≤ (c : ℚ) / T * (L + T - D) := by
  have hTq : (0 : ℚ) < T := by exact_mod_cast hT
  have hDTq : (D : ℚ) ≤ T := by exact_mod_cast hDT
  unfold njobs
  split_ifs with h
  · simp only [Nat.zero_mul, Nat.cast_zero]
    have : (0 : ℚ) ≤ L := by positivity
    apply mul_nonneg (by positivity)
    linarith
  · have h1 : (((L - D) / T : ℕ) : ℚ) ≤ ((L : ℚ) - D) / T := by
      rw [← Nat.cast_sub (by omega)]
      exact Nat.cast_div_le
    have e : (c : ℚ) / T * (L + T - D) = ((L - D) / T + 1) * c := by field_simp; ring
    rw [e]
    push_cast
    apply mul_le_mul_of_nonneg_right _ (by positivity)
    linarith

/-- Baruah's test is safe for tasks each of which is feasible on its own (the test
itself rejects tasks with deadlines larger than periods). -/
theorem C56_bar_safe (m : ℕ) (ts : List ITask) (hm : 1 ≤ m) (hp : Proper ts)
    (hf : Feasible ts) (h : bar m (system ts) = true) : Schedulable m ts := by
  classical
  unfold bar at h
  split_ifs at h with h0
  rw [Bool.or_eq_true, not_or, decide_eq_true_eq, not_le, Bool.not_eq_true, Bool.not_eq_false'] at h0
  obtain ⟨hU, hcon⟩ := h0
  have hd : Constrained ts := by
    intro t ht
    rw [List.all_eq_true] at hcon
    have := hcon t.toTask (List.mem_map_of_mem ht)
    unfold SporadicTask.constrainedDeadline ITask.toTask at this
    simpa using this
  have hUeq : TaskSystem.utilization (system ts) = ∑ i, (costs ts i : ℚ) / periods ts i := by
    unfold TaskSystem.utilization
    simp only
    rw [sum_system]; rfl
  by_contra hmiss
  obtain ⟨k, A, S, hS, ⟨i0, j0, hpt⟩, hviol⟩ := bar_miss hp.period hp.deadline hd.le hf.le hm hmiss
  set L := A + deadlines ts k with hL
  have hLpos : 0 < L := by have := hp.deadline k; omega
  have hCL : costs ts k ≤ L := by have := hf.le k; omega
  have hdk := hp.deadline k
  have hmq : (1 : ℚ) ≤ m := by exact_mod_cast hm
  -- the test at this point
  rw [List.all_eq_true] at h
  have h1 := h ((ts.get k).toTask, (k : ℕ)) (by
    rw [List.mem_zipIdx_iff_getElem?]
    simp [system])
  simp only at h1
  rw [List.all_eq_true] at h1
  have hDeq : ((ts.get k).toTask).deadline = (deadlines ts k : ℚ) := rfl
  have hCeq : ((ts.get k).toTask).cost = (costs ts k : ℚ) := rfl
  have hviolq : (m : ℚ) * (A + deadlines ts k - costs ts k + 1) ≤
      ∑ i ∈ S, (carryWork (costs ts) (periods ts) (deadlines ts) k A i : ℚ) +
      ∑ i ∈ Sᶜ, (freshWork (costs ts) (periods ts) (deadlines ts) k A i : ℚ) := by
    have h2 : ((m * (L - costs ts k + 1) : ℕ) : ℚ) ≤
      ((∑ i ∈ S, carryWork (costs ts) (periods ts) (deadlines ts) k A i +
      ∑ i ∈ Sᶜ, freshWork (costs ts) (periods ts) (deadlines ts) k A i : ℕ) : ℚ) := by exact_mod_cast hviol
    push_cast at h2
    rw [Nat.cast_sub hCL, hL] at h2
    push_cast at h2
    exact h2
  -- within the bound
  have hbound : (A : ℚ) ≤ barBound (system ts) m ((ts.get k).toTask) := by
    have hcs : ∑ i ∈ S, (costs ts i : ℚ) ≤ topsum (system ts) (·.cost) (m - 1) := by
      have := sum_finset_le_topsum (fun i : Fin ts.length => (ts.get i).toTask) (·.cost)
        (fun i => by unfold ITask.toTask; simp) S (c := m - 1) (by omega)
      have e : (List.finRange ts.length).map (fun i => (ts.get i).toTask) = system ts := by
        unfold system
        apply List.ext_getElem <;> simp
      rw [e] at this
      exact this
    have hy : (((system ts).map (fun t => (t.period - t.deadline) * t.utilization)).sum : ℚ) =
        ∑ i, ((periods ts i : ℚ) - deadlines ts i) * ((costs ts i : ℚ) / periods ts i) := by
      rw [sum_system]; rfl
    unfold barBound
    simp only
    rw [hDeq, hCeq, hy, hUeq]
    rw [hUeq] at hU
    rw [le_div_iff₀ (by linarith)]
    have hterm : ∀ i, (carryWork (costs ts) (periods ts) (deadlines ts) k A i : ℚ) ≤
        (costs ts i : ℚ) / periods ts i * (L + periods ts i - deadlines ts i) + costs ts i := by
      intro i
      have h3 := gwork_le_njobs (c := costs ts i) (L := L) (hp.period i) (hd.le i)
      have h4 := njobs_mul_le (c := costs ts i) (L := L) (hp.period i) (hd.le i)
      have h5 : carryWork (costs ts) (periods ts) (deadlines ts) k A i ≤
          gwork (costs ts i) (periods ts i) L := by
        unfold carryWork
        split_ifs with hik
        · subst hik; exact (min_le_left _ _).trans (Nat.sub_le _ _)
        · exact min_le_left _ _
      have h6 : (carryWork (costs ts) (periods ts) (deadlines ts) k A i : ℚ) ≤
          ((njobs (periods ts i) (deadlines ts i) L * costs ts i + costs ts i : ℕ) : ℚ) := by
        exact_mod_cast h5.trans h3
      rw [Nat.cast_add] at h6
      linarith
    have hterm' : ∀ i, (freshWork (costs ts) (periods ts) (deadlines ts) k A i : ℚ) ≤
        (costs ts i : ℚ) / periods ts i * (L + periods ts i - deadlines ts i) := by
      intro i
      have h4 := njobs_mul_le (c := costs ts i) (L := L) (hp.period i) (hd.le i)
      have h5 : freshWork (costs ts) (periods ts) (deadlines ts) k A i ≤
          njobs (periods ts i) (deadlines ts i) L * costs ts i := by
        unfold freshWork
        split_ifs with hik
        · subst hik; exact (min_le_left _ _).trans (Nat.mul_le_mul_right _ (Nat.sub_le _ _))
        · exact min_le_left _ _
      have h6 : (freshWork (costs ts) (periods ts) (deadlines ts) k A i : ℚ) ≤
          ((njobs (periods ts i) (deadlines ts i) L * costs ts i : ℕ) : ℚ) := by exact_mod_cast h5
      linarith
    have hs1 := sum_le_sum (fun i (_ : i ∈ S) => hterm i)
    have hs2 := sum_le_sum (fun i (_ : i ∈ Sᶜ) => hterm' i)
    rw [sum_add_distrib] at hs1
    have hs3 := sum_add_sum_compl S (fun i => (costs ts i : ℚ) / periods ts i *
      (L + periods ts i - deadlines ts i))
    have hs4 : ∑ i, (costs ts i : ℚ) / periods ts i * (L + periods ts i - deadlines ts i) =
        (∑ i, (costs ts i : ℚ) / periods ts i) * L +
        ∑ i, ((periods ts i : ℚ) - deadlines ts i) * ((costs ts i : ℚ) / periods ts i) := by
      rw [sum_mul, ← sum_add_distrib]
      exact sum_congr rfl (fun i _ => by ring)
    have hLq : (L : ℚ) = A + deadlines ts k := by rw [hL]; push_cast; rfl
    rw [hs4] at hs3
    rw [hLq] at hs1 hs2 hs3
    nlinarith
  -- a test point
  have hmem : (A : ℚ) ∈ TaskSystem.dbfPointsOfChange (system ts) (barBound (system ts) m ((ts.get k).toTask))
      ((ts.get k).toTask).deadline := by
    unfold TaskSystem.dbfPointsOfChange
    rw [mem_uniq, mem_heapqMerge]
    refine ⟨_, List.mem_map_of_mem (f := fun t => SporadicTask.dbfPointsOfChange t _ _)
      (List.mem_map_of_mem (f := ITask.toTask) (List.get_mem ts i0)), ?_⟩
    have hT0 : (0 : ℚ) < ((ts.get i0).toTask).period := by
      have : (0 : ℚ) < periods ts i0 := by exact_mod_cast hp.period i0
      exact this
    unfold SporadicTask.dbfPointsOfChange
    refine (mem_points hT0 _ _ _ _).2 ⟨hbound, ⟨j0, ?_⟩, fun _ => by positivity⟩
    rw [hDeq]
    have : ((L : ℕ) : ℚ) = ((deadlines ts i0 + j0 * periods ts i0 : ℕ) : ℚ) := by exact_mod_cast hpt
    rw [hL] at this
    push_cast at this
    rw [this]
    rfl
  have h2 := h1 _ hmem
  unfold barOffset at h2
  simp only at h2
  rw [decide_eq_true_eq] at h2
  apply absurd h2
  rw [not_le, hDeq, hCeq]
  have hlen : (system ts).length = ts.length := by simp [system]
  have hzip : List.zipIdx (system ts) = (List.finRange ts.length).map (fun i => ((ts.get i).toTask, (i : ℕ))) := by
    unfold system
    apply List.ext_getElem <;> simp
  -- the terms of the test
  have hI1 : ∀ i : Fin ts.length, barI1 ((i : ℕ) == (k : ℕ)) ((ts.get i).toTask) ((ts.get k).toTask) A =
      (freshWork (costs ts) (periods ts) (deadlines ts) k A i : ℚ) := by
    intro i
    have hdbf : ((ts.get i).toTask).dbf ((A : ℚ) + ((ts.get k).toTask).deadline) =
        ((njobs (periods ts i) (deadlines ts i) L * costs ts i : ℕ) : ℚ) := by
      have := dbf_eq_njobs (ts.get i) (hp.period i) hLpos
      rw [hL] at this
      push_cast at this
      rw [hDeq]
      push_cast
      exact this
    unfold barI1 freshWork
    rw [hdbf, hDeq, hCeq]
    by_cases hik : i = k
    · subst hik
      rw [if_pos rfl, if_pos (by simp)]
      have hn1 : 1 ≤ njobs (periods ts i) (deadlines ts i) L := by
        unfold njobs
        rw [if_neg (by omega)]; exact Nat.le_add_left _ _
      rw [← hL, Nat.cast_min, Nat.cast_mul, Nat.cast_mul, Nat.cast_sub hn1]
      push_cast
      congr 1
      ring
    · rw [if_neg hik, if_neg (by simpa [Fin.ext_iff] using hik)]
      rw [← hL, Nat.cast_min, Nat.cast_add, Nat.cast_sub hCL, hL]
      push_cast
      congr 1
      ring
  have hI2 : ∀ i : Fin ts.length, barI2 ((i : ℕ) == (k : ℕ)) ((ts.get i).toTask) ((ts.get k).toTask) A =
      (carryWork (costs ts) (periods ts) (deadlines ts) k A i : ℚ) := by
    intro i
    have hdbf : barDbf ((ts.get i).toTask) ((A : ℚ) + ((ts.get k).toTask).deadline) =
        (gwork (costs ts i) (periods ts i) L : ℚ) := by
      have := barDbf_eq_gwork (ts.get i) L
      rw [hL] at this
      push_cast at this
      rw [hDeq]
      exact this
    unfold barI2 carryWork
    rw [hdbf, hDeq, hCeq]
    by_cases hik : i = k
    · subst hik
      rw [if_pos rfl, if_pos (by simp)]
      have hn1 : costs ts i ≤ gwork (costs ts i) (periods ts i) L :=
        le_gwork (hp.period i) ((hf.le i).trans (hd.le i)) hCL
      rw [← hL, Nat.cast_min, Nat.cast_sub hn1]
    · rw [if_neg hik, if_neg (by simpa [Fin.ext_iff] using hik)]
      rw [← hL, Nat.cast_min, Nat.cast_add, Nat.cast_sub hCL, hL]
      push_cast
      congr 1
      ring
  have hmono : ∀ i, freshWork (costs ts) (periods ts) (deadlines ts) k A i ≤
      carryWork (costs ts) (periods ts) (deadlines ts) k A i := by
    intro i
    have hng : njobs (periods ts i) (deadlines ts i) L * costs ts i ≤ gwork (costs ts i) (periods ts i) L := by
      unfold njobs
      split_ifs with hlt
      · simp
      · have e : deadlines ts i + (L - deadlines ts i) / periods ts i * periods ts i ≤ L := by
          have := Nat.div_mul_le_self (L - deadlines ts i) (periods ts i)
          omega
        refine le_trans ?_ (gwork_mono (hp.period i) ((hf.le i).trans (hd.le i)) e)
        generalize (L - deadlines ts i) / periods ts i = a
        induction a with
        | zero => simpa using le_gwork (hp.period i) ((hf.le i).trans (hd.le i)) (hf.le i)
        | succ a ih =>
          rw [show deadlines ts i + (a + 1) * periods ts i =
            deadlines ts i + a * periods ts i + periods ts i by ring, gwork_add _ (hp.period i)]
          rw [Nat.add_mul (a + 1) 1]
          omega
    unfold freshWork carryWork
    split_ifs with hik
    · subst hik
      have : (njobs (periods ts i) (deadlines ts i) L - 1) * costs ts i ≤
          gwork (costs ts i) (periods ts i) L - costs ts i := by
        rw [Nat.sub_mul]; omega
      rw [← hL]
      exact min_le_min_right _ this
    · exact min_le_min_right _ hng
  have htop := sum_finset_le_topsum (n := ts.length)
    (fun i => ((ts.get i).toTask, (i : ℕ)))
    (fun p => barI2 (p.2 == (k : ℕ)) p.1 ((ts.get k).toTask) A - barI1 (p.2 == (k : ℕ)) p.1 ((ts.get k).toTask) A)
    (fun i => by
      simp only
      rw [hI1, hI2, sub_nonneg]
      exact_mod_cast hmono i) S (c := m - 1) (by omega)
  have htopsum : topsum ((List.zipIdx (system ts)).map (fun p =>
      barI2 (p.2 == (k : ℕ)) p.1 ((ts.get k).toTask) A - barI1 (p.2 == (k : ℕ)) p.1 ((ts.get k).toTask) A)) id (m - 1) =
      topsum (List.zipIdx (system ts)) (fun p =>
      barI2 (p.2 == (k : ℕ)) p.1 ((ts.get k).toTask) A - barI1 (p.2 == (k : ℕ)) p.1 ((ts.get k).toTask) A) (m - 1) := by
    unfold topsum
    rw [List.map_map]; rfl
  rw [htopsum, hzip]
  have hsum1 : (List.map (fun p : SporadicTask × ℕ => barI1 (p.2 == (k : ℕ)) p.1 ((ts.get k).toTask) A)
      ((List.finRange ts.length).map (fun i => ((ts.get i).toTask, (i : ℕ))))).sum =
      ∑ i, (freshWork (costs ts) (periods ts) (deadlines ts) k A i : ℚ) := by
    rw [List.map_map, sum_finRange_map]
    exact sum_congr rfl (fun i _ => hI1 i)
  rw [hsum1]
  simp only [hI1, hI2] at htop
  rw [sum_sub_distrib] at htop
  have hsplit := sum_add_sum_compl S (fun i => (freshWork (costs ts) (periods ts) (deadlines ts) k A i : ℚ))
  have : (m : ℚ) * (A + deadlines ts k - costs ts k) < m * (A + deadlines ts k - costs ts k + 1) := by
    nlinarith
  linarith

/-- Evaluates the test at the points `D_i + j * T_i - D_k` for `j < J` (a computable
way to establish that the test accepts). -/
def barCheck (m : ℕ) (ts : List ITask) (J : ℕ) : Bool :=
  decide (TaskSystem.utilization (system ts) < m) && ts.all (fun t => decide (t.deadline ≤ t.period)) &&
  (List.finRange ts.length).all (fun k => ts.all (fun ti =>
    decide (barBound (system ts) m ((ts.get k).toTask) <
      (ti.deadline : ℚ) + J * ti.period - (ts.get k).deadline) &&
    (List.range J).all (fun j =>
      let a := (ti.deadline : ℚ) + j * ti.period - (ts.get k).deadline
      decide (a < 0) || decide (barBound (system ts) m ((ts.get k).toTask) < a) ||
        barOffset (system ts) k ((ts.get k).toTask) a m)))

theorem bar_of_check {m : ℕ} {ts : List ITask} {J : ℕ} (hp : Proper ts)
    (h : barCheck m ts J = true) : bar m (system ts) = true := by
  unfold barCheck at h
  simp only [Bool.and_eq_true, decide_eq_true_eq, List.all_eq_true] at h
  obtain ⟨⟨hU, hcon⟩, h⟩ := h
  unfold bar
  rw [if_neg]
  · rw [List.all_eq_true]
    rintro ⟨tk, k⟩ hk
    rw [List.mem_zipIdx_iff_getElem?] at hk
    simp only [system, List.getElem?_map, Option.map_eq_some_iff] at hk
    obtain ⟨t, ht, rfl⟩ := hk
    obtain ⟨hlt, rfl⟩ := List.getElem?_eq_some_iff.1 ht
    simp only
    rw [List.all_eq_true]
    intro a ha
    unfold TaskSystem.dbfPointsOfChange at ha
    rw [mem_uniq, mem_heapqMerge] at ha
    obtain ⟨l, hl, hal⟩ := ha
    obtain ⟨t', ht', rfl⟩ := List.mem_map.1 hl
    obtain ⟨ti, hti, rfl⟩ := List.mem_map.1 ht'
    have hTi : (0 : ℚ) < ti.toTask.period := by
      have : (0 : ℚ) < ti.period := by exact_mod_cast (hp ti hti).1
      exact this
    unfold SporadicTask.dbfPointsOfChange at hal
    obtain ⟨h1, ⟨j, hj⟩, h3⟩ := (mem_points hTi _ _ _ _).1 hal
    have hdk : (0 : ℚ) < (ts[k].toTask).deadline := by
      have : (0 : ℚ) < (ts[k].deadline : ℚ) := by exact_mod_cast (hp _ (List.getElem_mem hlt)).2
      exact this
    have ha0 := h3 hdk
    have hja : a = (ti.deadline : ℚ) + j * ti.period - (ts[k]).deadline := by
      have : a + (ts[k].deadline : ℚ) = (ti.deadline : ℚ) + j * ti.period := hj
      linarith
    obtain ⟨hJ, hall⟩ := h ⟨k, hlt⟩ (List.mem_finRange _) ti hti
    simp only [List.get_eq_getElem] at hJ hall
    have hjJ : j < J := by
      by_contra hc
      have h4 : (J : ℚ) ≤ j := by exact_mod_cast not_lt.1 hc
      have h5 : (0 : ℚ) < ti.period := hTi
      have h6 := mul_le_mul_of_nonneg_right h4 h5.le
      have h7 : a ≤ barBound (system ts) m (ts[k].toTask) := h1
      linarith
    have := hall j (List.mem_range.2 hjJ)
    simp only [Bool.or_eq_true, decide_eq_true_eq] at this
    rw [← hja] at this
    have h7 : a ≤ barBound (system ts) m (ts[k].toTask) := h1
    rcases this with (h8 | h8) | h8
    · linarith
    · linarith
    · exact h8
  · rw [Bool.or_eq_true, not_or, decide_eq_true_eq, not_le, Bool.not_eq_true, Bool.not_eq_false']
    refine ⟨hU, ?_⟩
    rw [List.all_eq_true]
    intro t ht
    obtain ⟨t', ht', rfl⟩ := List.mem_map.1 ht
    have := hcon t' ht'
    unfold SporadicTask.constrainedDeadline ITask.toTask
    simpa using this

/-- A set that Baruah's test accepts on two processors. -/
example : Proper [⟨2, 7, 6⟩, ⟨1, 5, 5⟩, ⟨3, 9, 8⟩] ∧ Feasible [⟨2, 7, 6⟩, ⟨1, 5, 5⟩, ⟨3, 9, 8⟩] ∧
    bar 2 (system [⟨2, 7, 6⟩, ⟨1, 5, 5⟩, ⟨3, 9, 8⟩]) = true :=
  ⟨by decide, by decide, bar_of_check (J := 10) (by decide) (by decide +kernel)⟩

end Verif.GEdf
