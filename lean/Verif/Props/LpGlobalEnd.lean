/-
The loops of the LP-based analyses of global fixed-priority scheduling with priority queues end.
-/
import Verif.Props.LpGlobalPrio

namespace Verif.SR.Lp.Glob
open Verif.Spec Finset

variable {info : Info}

theorem divideWithCeil_mono {a b m : ℕ} (h : a ≤ b) : Native.divideWithCeil a m ≤ Native.divideWithCeil b m := by
  rcases Nat.eq_zero_or_pos m with rfl | hm
  · unfold Native.divideWithCeil
    simp only [Nat.div_zero, Nat.mod_zero]
    split_ifs <;> omega
  · rw [Native.divideWithCeil_eq _ hm, Native.divideWithCeil_eq _ hm]
    apply Nat.div_le_div_right
    omega

theorem maxNumJobs_mono (t : TaskInfo) {a b : ℕ} (h : a ≤ b) : t.maxNumJobs a ≤ t.maxNumJobs b := by
  unfold TaskInfo.maxNumJobs
  exact divideWithCeil_mono (by omega)

theorem workloadBound_mono (t : TaskInfo) {a b : ℕ} (h : a ≤ b) : workloadBound t a ≤ workloadBound t b := by
  unfold workloadBound
  simp only
  set s := if t.deadline > t.response then t.deadline - t.response else 0
  set x := a + t.deadline - t.cost - s
  set y := b + t.deadline - t.cost - s
  have hxy : x ≤ y := by omega
  have h1 : x / t.period ≤ y / t.period := Nat.div_le_div_right hxy
  rcases Nat.eq_or_lt_of_le h1 with e | hlt
  · rw [e]
    have : x - y / t.period * t.period ≤ y - y / t.period * t.period := by omega
    have := min_le_min_left t.cost this
    omega
  · have h2 : (x / t.period + 1) * t.cost ≤ y / t.period * t.cost := Nat.mul_le_mul_right _ hlt
    rw [Nat.add_mul, Nat.one_mul] at h2
    have := min_le_left t.cost (x - x / t.period * t.period)
    omega

theorem list_sum_mono {α : Type} (l : List α) {f g : α → ℕ} (h : ∀ a ∈ l, f a ≤ g a) :
    (l.map f).sum ≤ (l.map g).sum := List.sum_le_sum h

theorem interfNo_mono (i : ℕ) (tx : ℕ × TaskInfo) : Monotone (interfNo info i tx) := by
  intro a b h
  exact list_sum_mono _ (fun t _ => workloadBound_mono _ h)

theorem ite_mono (c : Prop) [Decidable c] {a b : ℕ} (h : a ≤ b) : (if c then a else 0) ≤ if c then b else 0 := by
  split_ifs
  · exact h
  · exact le_rfl

theorem interfPi_mono (i : ℕ) (tx : ℕ × TaskInfo) : Monotone (interfPi info i tx) := by
  intro a b h
  unfold interfPi
  simp only
  apply list_sum_mono
  intro t _
  exact Nat.add_le_add (ite_mono _ (workloadBound_mono _ h)) (ite_mono _ (list_sum_mono _ (fun r _ => ite_mono _
    (Nat.mul_le_mul_right _ (Nat.mul_le_mul_right _ (maxNumJobs_mono _ h))))))

/-- The loop for hold times ends. -/
theorem holdLoop_isSome {m len D : ℕ} {f : ℕ → ℕ} (hf : Monotone f) : ∀ {fuel I : ℕ}, D + 1 < fuel + I →
    I ≤ len + Native.divideWithCeil (f I) m → 0 < fuel → (holdLoop m len D f fuel I).isSome := by
  intro fuel
  induction fuel with
  | zero => intro I _ _ h; omega
  | succ fuel ih =>
    intro I h1 h2 _
    unfold holdLoop
    by_cases h3 : I > D
    · rw [if_pos h3]
      rfl
    rw [if_neg h3]
    simp only
    by_cases h4 : I ≠ len + Native.divideWithCeil (f I) m
    · rw [if_pos h4]
      apply ih
      · omega
      · exact Nat.add_le_add_left (divideWithCeil_mono (hf h2)) _
      · omega
    · rw [if_neg h4]
      rfl

theorem holdTime_isSome {m fuel : ℕ} {interf : ℕ × TaskInfo → ℕ → ℕ} (hf : ∀ tx, Monotone (interf tx))
    {tx : ℕ × TaskInfo} (hfuel : tx.2.deadline + 1 < fuel) (q : ℕ) : (holdTime m fuel interf tx q).isSome := by
  unfold holdTime
  simp only
  split_ifs
  · rfl
  · rfl
  · exact holdLoop_isSome (hf tx) (by omega) (by omega) (by omega)

theorem waitHigherLoop_isSome {hold : ℕ × TaskInfo → ℕ → Option ℕ} {q I : ℕ} : ∀ {l : List (ℕ × TaskInfo)} {s : ℕ},
    (∀ t ∈ l, (hold t q).isSome) → (waitHigherLoop hold q I l s).isSome := by
  intro l
  induction l with
  | nil => intro s _; rfl
  | cons a l ih =>
    intro s h
    unfold waitHigherLoop
    obtain ⟨H, hH⟩ := Option.isSome_iff_exists.1 (h a List.mem_cons_self)
    rw [hH, Option.bind_some]
    split_ifs
    · rfl
    · exact ih (fun t ht => h t (List.mem_cons_of_mem _ ht))

/-- The loop for wait times ends. -/
theorem waitLoop_isSome {hold : ℕ × TaskInfo → ℕ → Option ℕ} {q D lower : ℕ} {l : List (ℕ × TaskInfo)}
    (hl : ∀ t ∈ l, (hold t q).isSome) : ∀ {fuel I : ℕ}, D + 1 < fuel + I →
    (∀ w, waitHigherLoop hold q I l 0 = some w → w ≠ Msrp.uintMax → I ≤ lower + w + 1) → 0 < fuel →
    (waitLoop D lower (fun I => waitHigherLoop hold q I l 0) fuel I).isSome := by
  intro fuel
  induction fuel with
  | zero => intro I _ _ h; omega
  | succ fuel ih =>
    intro I h1 h2 _
    unfold waitLoop
    by_cases h3 : I > D
    · rw [if_pos h3]
      rfl
    rw [if_neg h3]
    obtain ⟨w, hw⟩ := Option.isSome_iff_exists.1 (waitHigherLoop_isSome (I := I) (s := 0) hl)
    rw [hw, Option.bind_some]
    by_cases h5 : w = Msrp.uintMax
    · rw [if_pos h5]
      rfl
    rw [if_neg h5]
    simp only
    have h6 := h2 w hw h5
    by_cases h4 : I ≠ lower + w + 1
    · rw [if_pos h4]
      apply ih
      · omega
      · intro w' hw' hne'
        have e := (waitHigherLoop_spec hw h5).2
        have e' := (waitHigherLoop_spec hw' hne').2
        have : w ≤ w' := by
          rw [e, e']
          apply Nat.add_le_add_left
          apply list_sum_mono
          intro t _
          exact Nat.mul_le_mul_right _ (Nat.mul_le_mul_right _ (maxNumJobs_mono _ h6))
        omega
      · omega
    · rw [if_neg h4]
      rfl

theorem foldlM_isSome {α β : Type} {f : β → α → Option β} : ∀ (l : List α) (b : β),
    (∀ b, ∀ a ∈ l, (f b a).isSome) → (l.foldlM f b).isSome := by
  intro l
  induction l with
  | nil => intro b _; rfl
  | cons a l ih =>
    intro b h
    rw [List.foldlM_cons]
    obtain ⟨c, hc⟩ := Option.isSome_iff_exists.1 (h b a List.mem_cons_self)
    rw [hc]
    exact ih c (fun b a ha => h b a (List.mem_cons_of_mem _ ha))

theorem mem_tasks_snd {t : ℕ × TaskInfo} (h : t ∈ tasks info) : t.2 ∈ info := by
  unfold tasks at h
  rw [List.mem_iff_getElem?] at h
  obtain ⟨i, hi⟩ := h
  simp at hi
  obtain ⟨w, hi, rfl⟩ := hi
  exact List.mem_of_getElem? hi

theorem waitTime_isSome {ti : TaskInfo} {fuel : ℕ} {hold : ℕ × TaskInfo → ℕ → Option ℕ} {q : ℕ}
    (hold_some : ∀ t ∈ tasks info, (hold t q).isSome) (hfuel : ti.deadline + 1 < fuel) :
    (waitTime info ti fuel hold q).isSome := by
  unfold waitTime
  have h1 : (waitLower info ti hold q).isSome := by
    apply foldlM_isSome
    intro b t ht
    rw [Option.isSome_map]
    exact hold_some t (List.mem_of_mem_filter ht)
  obtain ⟨lower, hl⟩ := Option.isSome_iff_exists.1 h1
  rw [hl, Option.bind_some]
  split_ifs
  · rfl
  · refine waitLoop_isSome (l := (higherTasks info ti).flatMap (fun t =>
      (t.2.requests.filter (fun r => r.resId = q)).map (fun _ => t))) ?_
      (fuel := fuel) (I := lower + 1) (by omega) (fun w _ _ => by omega) (by omega)
    intro t ht
    obtain ⟨t', ht', h2⟩ := List.mem_flatMap.1 ht
    obtain ⟨_, _, rfl⟩ := List.mem_map.1 h2
    exact hold_some _ (List.mem_of_mem_filter ht')

theorem prioHigherConstraints_isSome {ti : TaskInfo} {fuel : ℕ} {hold : ℕ × TaskInfo → ℕ → Option ℕ}
    (hold_some : ∀ t ∈ tasks info, ∀ q, (hold t q).isSome) (hfuel : ti.deadline + 1 < fuel) (lp : Program) :
    (prioHigherConstraints info ti fuel hold lp).isSome := by
  unfold prioHigherConstraints
  apply foldlM_isSome
  intro b t _
  apply foldlM_isSome
  intro b q _
  apply foldlM_isSome
  intro b r _
  rw [Option.isSome_map]
  unfold higherDirect
  rw [Option.isSome_map]
  exact waitTime_isSome (fun t ht => hold_some t ht q) hfuel

theorem mapM_isSome {α β : Type} {f : α → Option β} : ∀ (l : List α), (∀ a ∈ l, (f a).isSome) → (l.mapM f).isSome := by
  intro l
  induction l with
  | nil => intro _; rfl
  | cons a l ih =>
    intro h
    rw [List.mapM_cons]
    obtain ⟨c, hc⟩ := Option.isSome_iff_exists.1 (h a List.mem_cons_self)
    obtain ⟨d, hd⟩ := Option.isSome_iff_exists.1 (ih (fun a ha => h a (List.mem_cons_of_mem _ ha)))
    rw [hc, hd]
    rfl

theorem bounds_isSome {solve : Solver} {program : ℕ → TaskInfo → Option Program}
    (hp : ∀ (i : ℕ) (t : TaskInfo), info[i]? = some t → t.priority = i) (hc : ∀ t ∈ info, t.cost ≤ t.response)
    (h : ∀ i t, t ∈ info → (program i t).isSome) : (bounds solve info program).isSome := by
  unfold bounds
  apply mapM_isSome
  intro t ht
  have h1 : indexIsPriority info = true := by
    unfold indexIsPriority
    rw [List.all_eq_true]
    intro t ht
    rw [decide_eq_true_eq]
    unfold tasks at ht
    rw [List.mem_iff_getElem?] at ht
    obtain ⟨i, hi⟩ := ht
    simp at hi
    obtain ⟨w, hi, rfl⟩ := hi
    exact hp i _ hi
  rw [if_pos h1]
  have ht' := mem_tasks_snd ht
  obtain ⟨P, hP⟩ := Option.isSome_iff_exists.1 (h t.1 t.2 ht')
  rw [hP, Option.bind_some]
  unfold solved
  cases solve P with
  | none => rfl
  | some x =>
    simp only
    rw [if_neg (not_lt.2 (hc _ ht'))]
    split_ifs <;> rfl

/-- **C129**: the loops of the LP-based analyses of global fixed-priority scheduling with priority queues end after at
most `D + 2` iterations, if no deadline exceeds `D`, whatever the solver returns. -/
theorem C129_priority_lp_ends (info : Info) (m : ℕ) (solve : Solver)
    (hprio : ∀ (i : ℕ) (t : TaskInfo), info[i]? = some t → t.priority = i)
    (hT : ∀ t ∈ info, t.cost ≤ t.response)
    (D : ℕ) (hD : ∀ t ∈ info, t.deadline ≤ D) (fuel : ℕ) (hfuel : D + 2 ≤ fuel) :
    (∃ bs, noProgressPriorityBounds solve fuel info m = some bs) ∧
    (∃ bs, pipBounds solve fuel info m = some bs) := by
  constructor
  all_goals
    rw [← Option.isSome_iff_exists]
    apply bounds_isSome hprio hT
    intro i t ht
    have h1 := hD t ht
    refine prioHigherConstraints_isSome ?_ (by omega) _
    intro t ht q
    have h2 := hD _ (mem_tasks_snd ht)
  · exact holdTime_isSome (interfNo_mono i) (by omega) q
  · exact holdTime_isSome (interfPi_mono i) (by omega) q

/-- The tasks of C128. -/
example : (∀ (i : ℕ) (t : TaskInfo), exFmlp[i]? = some t → t.priority = i) ∧ (∀ t ∈ exFmlp, t.cost ≤ t.response) ∧
    ∀ t ∈ exFmlp, t.deadline ≤ 20 := by
  refine ⟨?_, by decide, by decide⟩
  intro i t h
  rcases i with _ | _ | _ | i
  · cases h; rfl
  · cases h; rfl
  · cases h; rfl
  · simp [exFmlp] at h

end Verif.SR.Lp.Glob
