/-
The iterative slack analysis for global EDF (`schedcat/sched/edf/bcl_iterative.py`):
safety, monotonicity and termination.
-/
import Verif.Props.GedfRta

namespace Verif.GEdf
open Verif.Spec Finset

variable {ts : List ITask} {m : ℕ}

theorem bcliWork_eq_edfWork (L : ℕ) (t : Slacked) : bcliWork L t = edfWork L t := by
  unfold bcliWork edfWork
  simp only
  congr 3
  have h := Int.mul_ediv_add_emod (L : ℤ) t.1.period
  rw [mul_comm] at h
  omega

/-- Interference on task `k` within its deadline. -/
def bcliSum (ts : List ITask) (E : Fin ts.length → ℕ) (k : Fin ts.length) : ℕ :=
  ∑ i ∈ univ.erase k, min (ework (costs ts i) (periods ts i) (deadlines ts i - E i) (deadlines ts k))
    (deadlines ts k - costs ts k + 1)

theorem bcliSlackUpdate_eq {E : Fin ts.length → ℕ} (hE : ∀ i, E i ≤ deadlines ts i) (k : Fin ts.length)
    (hk : costs ts k ≤ deadlines ts k) :
    bcliSlackUpdate (ts.get k) ((stateOf ts E).eraseIdx k) m =
      (deadlines ts k : ℤ) - (costs ts k + bcliSum ts E k / m : ℕ) := by
  unfold bcliSlackUpdate bcliSum
  simp only
  rw [sum_erase_stateOf]
  have : ∀ i ∈ univ.erase k, min (bcliWork (ts.get k).deadline (ts.get i, (deadlines ts i : ℤ) - E i))
      (((ts.get k).deadline : ℤ) - (ts.get k).cost + 1) =
    ((min (ework (costs ts i) (periods ts i) (deadlines ts i - E i) (deadlines ts k))
      (deadlines ts k - costs ts k + 1) : ℕ) : ℤ) := by
    intro i _
    push_cast
    congr 1
    · rw [bcliWork_eq_edfWork]
      exact edfWork_eq _ _ _ (hE i)
    · rw [Nat.cast_sub hk]; rfl
  rw [sum_congr rfl this]
  push_cast
  have : ((ts.get k).deadline : ℤ) = deadlines ts k := rfl
  have : ((ts.get k).cost : ℤ) = costs ts k := rfl
  omega

theorem bcliStep_inv (hm : 0 < m) (hp : Proper ts) (hd : Constrained ts) (hf : Feasible ts)
    {s : RoundState} (hs : StateInv m ts s.tasks) (k : Fin ts.length) :
    StateInv m ts (bcliStep m s k).tasks ∧
      ((bcliStep m s k).ok = true → s.ok = true ∧ Passed m ts k) := by
  obtain ⟨E, hst, hE, hJ⟩ := hs
  unfold bcliStep
  rw [hst, stateOf_get]
  simp only
  rw [bcliSlackUpdate_eq (fun i => (hE i).2) k (hf.le k)]
  set R := costs ts k + bcliSum ts E k / m with hR
  have hstep : R ≤ deadlines ts k → Step m ts E k R := fun hRD =>
    bcli_step hm hp.period hd.le (fun i => (hE i).2) hRD
  constructor
  · rcases le_total (E k) R with h | h
    · rw [max_eq_left (by omega), stateOf_set, Function.update_eq_self]
      exact ⟨E, rfl, hE, hJ⟩
    · rw [max_eq_right (by omega), stateOf_set]
      have hRD := h.trans (hE k).2
      exact ⟨_, rfl, between_update hE (Nat.le_add_right _ _) hRD, hJ.step (hstep hRD)⟩
  · intro hok
    simp only [Bool.and_eq_true, decide_eq_true_eq] at hok
    have hRD : R ≤ deadlines ts k := by omega
    exact ⟨hok.1, E, R, hJ, hstep hRD, hRD⟩

theorem bcliRound_inv (hm : 0 < m) (hp : Proper ts) (hd : Constrained ts) (hf : Feasible ts) :
    ∀ (l : List ℕ) (s : RoundState), (∀ k ∈ l, k < ts.length) → StateInv m ts s.tasks →
    StateInv m ts (l.foldl (bcliStep m) s).tasks ∧ ((l.foldl (bcliStep m) s).ok = true →
      s.ok = true ∧ ∀ k : Fin ts.length, k.1 ∈ l → Passed m ts k)
  | [], s, _, hs => ⟨hs, fun h => ⟨h, by simp⟩⟩
  | a :: l, s, hl, hs => by
    have ha := hl a List.mem_cons_self
    obtain ⟨hs1, ho1⟩ := bcliStep_inv hm hp hd hf hs ⟨a, ha⟩
    obtain ⟨hs', ho'⟩ := bcliRound_inv hm hp hd hf l (bcliStep m s a)
      (fun k hk => hl k (List.mem_cons_of_mem _ hk)) hs1
    refine ⟨hs', fun hok => ?_⟩
    obtain ⟨g1, g2⟩ := ho' hok
    obtain ⟨g3, g4⟩ := ho1 g1
    refine ⟨g3, fun k hk => ?_⟩
    rcases List.mem_cons.1 hk with hk | hk
    · have : k = ⟨a, ha⟩ := Fin.ext hk
      rw [this]; exact g4
    · exact g2 k hk

theorem bcliRounds_inv (hm : 0 < m) (hp : Proper ts) (hd : Constrained ts) (hf : Feasible ts)
    {limit : ℕ} : ∀ (fuel round : ℕ) (s : RoundState), StateInv m ts s.tasks →
    (s.ok = true → ∀ k, Passed m ts k) → bcliRounds m limit fuel round s = some true →
    ∀ k, Passed m ts k
  | 0, _, _, _, _, h => by simp [bcliRounds] at h
  | fuel + 1, round, s, hs, ho, h => by
    unfold bcliRounds at h
    split_ifs at h with hc
    · have hlen : s.tasks.length = ts.length := by
        obtain ⟨E, hE, _⟩ := hs
        rw [hE, stateOf_length]
      obtain ⟨g1, g2⟩ := bcliRound_inv hm hp hd hf (List.range s.tasks.length) ⟨s.tasks, true, false⟩
        (fun k hk => by rw [hlen] at hk; exact List.mem_range.1 hk) hs
      exact bcliRounds_inv hm hp hd hf fuel (round + 1) _ g1 (fun hok k =>
        (g2 hok).2 k (by rw [hlen]; exact List.mem_range.2 k.2)) h
    · simp only [Option.some.injEq] at h
      exact ho h

/-- If the iterative slack analysis accepts a set of feasible tasks with constrained
deadlines, no deadline is ever missed under global EDF. -/
theorem C58_bcli_safe (m : ℕ) (ts : List ITask) (hm : 1 ≤ m) (hp : Proper ts)
    (hd : Constrained ts) (hf : Feasible ts) (fuel limit : ℕ)
    (h : bcli fuel m ts limit = some true) : Schedulable m ts := by
  intro w σ h1 h2 h3
  exact (justified_sound (bcliRounds_inv hm hp hd hf _ _ _ (stateInv_init hf) (by simp) h)
    h1 h2 h3).1

/-- A set accepted in the second round. -/
example : Proper [⟨2, 7, 6⟩, ⟨4, 9, 7⟩, ⟨3, 9, 8⟩] ∧ Constrained [⟨2, 7, 6⟩, ⟨4, 9, 7⟩, ⟨3, 9, 8⟩] ∧
    Feasible [⟨2, 7, 6⟩, ⟨4, 9, 7⟩, ⟨3, 9, 8⟩] ∧
    bcli 30 2 [⟨2, 7, 6⟩, ⟨4, 9, 7⟩, ⟨3, 9, 8⟩] = some true := by
  decide +kernel

/-! ### Monotonicity and termination, for every task set -/

/-- The tasks annotated with slacks. -/
def stateZ (ts : List ITask) (sl : Fin ts.length → ℤ) : List Slacked :=
  List.ofFn (fun i => (ts.get i, sl i))

theorem stateZ_length (sl : Fin ts.length → ℤ) : (stateZ ts sl).length = ts.length := by
  simp [stateZ]

theorem stateZ_get (sl : Fin ts.length → ℤ) (k : Fin ts.length) :
    (stateZ ts sl)[k.1]? = some (ts.get k, sl k) := by
  simp [stateZ]

theorem stateZ_set (sl : Fin ts.length → ℤ) (k : Fin ts.length) (x : ℤ) :
    (stateZ ts sl).set k (ts.get k, x) = stateZ ts (Function.update sl k x) := by
  unfold stateZ
  apply List.ext_getElem
  · simp
  · intro i h1 h2
    simp only [List.getElem_set, List.getElem_ofFn]
    split_ifs with h
    · have : k = ⟨i, by simpa using h2⟩ := Fin.ext h
      rw [← this, Function.update_self]
    · rw [Function.update_of_ne]
      intro hc
      exact h (by rw [← hc])

theorem bcliWork_nonneg (L : ℕ) (t : Slacked) : 0 ≤ bcliWork L t := by
  unfold bcliWork
  simp only
  have h1 : (0 : ℤ) ≤ (L : ℤ) / t.1.period * t.1.cost := by positivity
  have h2 : (0 : ℤ) ≤ min (t.1.cost : ℤ) (max 0 ((L : ℤ) - t.2 - (L : ℤ) / t.1.period * t.1.period)) :=
    le_min (by positivity) (le_max_left _ _)
  omega

theorem bcliSlackUpdate_le (tk : ITask) (others : List Slacked) (m : ℕ) :
    bcliSlackUpdate tk others m ≤ tk.deadline + others.length * tk.cost := by
  unfold bcliSlackUpdate
  simp only
  have h1 : ∀ l : List Slacked, -((l.length : ℤ) * tk.cost) ≤ (l.map (fun ti =>
      min (bcliWork tk.deadline ti) ((tk.deadline : ℤ) - tk.cost + 1))).sum := by
    intro l
    induction l with
    | nil => simp
    | cons a l ih =>
      simp only [List.map_cons, List.sum_cons, List.length_cons]
      have := bcliWork_nonneg tk.deadline a
      push_cast
      rw [add_mul]
      omega
  have h2 := h1 others
  generalize (others.map (fun ti => min (bcliWork tk.deadline ti) ((tk.deadline : ℤ) - tk.cost + 1))).sum = x at *
  have hK : (0 : ℤ) ≤ (others.length : ℤ) * tk.cost := by positivity
  generalize (others.length : ℤ) * tk.cost = K at *
  have h3 : -K ≤ x / m := by
    rcases Nat.eq_zero_or_pos m with h | h
    · subst h; simp; exact hK
    · rw [Int.le_ediv_iff_mul_le (by exact_mod_cast h)]
      have : (1 : ℤ) ≤ m := by exact_mod_cast h
      nlinarith
  omega

/-- A limit for the slack of each task. -/
def slackCap (ts : List ITask) (i : Fin ts.length) : ℤ := deadlines ts i + ts.length * costs ts i

theorem bcliStep_dec (m : ℕ) {s : RoundState} {sl : Fin ts.length → ℤ} (hs : s.tasks = stateZ ts sl)
    (hcap : ∀ i, sl i ≤ slackCap ts i) (k : Fin ts.length) :
    ∃ sl', (bcliStep m s k).tasks = stateZ ts sl' ∧ (∀ i, sl i ≤ sl' i) ∧ (∀ i, sl' i ≤ slackCap ts i) ∧
      ((bcliStep m s k).updated = true → s.updated = true ∨ ∑ i, sl i + 1 ≤ ∑ i, sl' i) := by
  unfold bcliStep
  rw [hs, stateZ_get]
  simp only
  set x := bcliSlackUpdate (ts.get k) ((stateZ ts sl).eraseIdx k) m with hx
  have hxcap : x ≤ slackCap ts k := by
    refine (bcliSlackUpdate_le _ _ _).trans ?_
    unfold slackCap costs deadlines
    have : ((stateZ ts sl).eraseIdx k).length ≤ ts.length := by
      rw [List.length_eraseIdx, stateZ_length]; split_ifs <;> omega
    have h1 : ((((stateZ ts sl).eraseIdx k).length : ℕ) : ℤ) * (ts.get k).cost ≤ ts.length * (ts.get k).cost := by
      apply mul_le_mul_of_nonneg_right (by exact_mod_cast this) (by positivity)
    omega
  have hle : ∀ i, sl i ≤ Function.update sl k (max (sl k) x) i := by
    intro i
    by_cases h : i = k
    · subst h; simp
    · rw [Function.update_of_ne h]
  refine ⟨Function.update sl k (max (sl k) x), stateZ_set _ _ _, hle, ?_, ?_⟩
  · intro i
    by_cases h : i = k
    · subst h; rw [Function.update_self]; exact max_le (hcap i) hxcap
    · rw [Function.update_of_ne h]; exact hcap i
  · intro hu
    rw [Bool.or_eq_true, decide_eq_true_eq] at hu
    rcases hu with hu | hu
    · exact Or.inl hu
    · right
      rw [← add_sum_erase univ sl (mem_univ k), ← add_sum_erase univ _ (mem_univ k), Function.update_self]
      have : ∑ i ∈ univ.erase k, sl i ≤ ∑ i ∈ univ.erase k, Function.update sl k (max (sl k) x) i :=
        sum_le_sum (fun i _ => hle i)
      omega

theorem bcliFold_dec (m : ℕ) : ∀ (l : List ℕ) (s : RoundState) (sl : Fin ts.length → ℤ),
    (∀ k ∈ l, k < ts.length) → s.tasks = stateZ ts sl → (∀ i, sl i ≤ slackCap ts i) →
    ∃ sl', (l.foldl (bcliStep m) s).tasks = stateZ ts sl' ∧ (∀ i, sl i ≤ sl' i) ∧
      (∀ i, sl' i ≤ slackCap ts i) ∧
      ((l.foldl (bcliStep m) s).updated = true → s.updated = true ∨ ∑ i, sl i + 1 ≤ ∑ i, sl' i)
  | [], s, sl, _, hs, hc => ⟨sl, hs, fun _ => le_rfl, hc, fun h => Or.inl h⟩
  | a :: l, s, sl, hl, hs, hc => by
    obtain ⟨sl1, h1, h2, h3, h4⟩ := bcliStep_dec m hs hc ⟨a, hl a List.mem_cons_self⟩
    obtain ⟨sl2, g1, g2, g3, g4⟩ := bcliFold_dec m l (bcliStep m s a) sl1
      (fun k hk => hl k (List.mem_cons_of_mem _ hk)) h1 h3
    refine ⟨sl2, g1, fun i => (h2 i).trans (g2 i), g3, fun hu => ?_⟩
    have s1 : ∑ i, sl i ≤ ∑ i, sl1 i := sum_le_sum (fun i _ => h2 i)
    have s2 : ∑ i, sl1 i ≤ ∑ i, sl2 i := sum_le_sum (fun i _ => g2 i)
    rcases g4 hu with h | h
    · rcases h4 h with h | h
      · exact Or.inl h
      · right; omega
    · right; omega

theorem bcliRound_dec (m : ℕ) (sl : Fin ts.length → ℤ) (hc : ∀ i, sl i ≤ slackCap ts i) :
    ∃ sl', (bcliRound m (stateZ ts sl)).tasks = stateZ ts sl' ∧ (∀ i, sl i ≤ sl' i) ∧
      (∀ i, sl' i ≤ slackCap ts i) ∧
      ((bcliRound m (stateZ ts sl)).updated = true → ∑ i, sl i + 1 ≤ ∑ i, sl' i) := by
  unfold bcliRound
  obtain ⟨sl', h1, h2, h3, h4⟩ := bcliFold_dec m (List.range (stateZ ts sl).length)
    ⟨stateZ ts sl, true, false⟩ sl (fun k hk => by
      rw [stateZ_length] at hk; exact List.mem_range.1 hk) rfl hc
  exact ⟨sl', h1, h2, h3, fun hu => by simpa using h4 hu⟩

/-- A round never lowers a slack. -/
theorem C19_bcli_slack_monotone (m : ℕ) (tasks : List Slacked) :
    List.Forall₂ (fun a b : Slacked => a.1 = b.1 ∧ a.2 ≤ b.2) tasks (bcliRound m tasks).tasks := by
  have hstep : ∀ (s : RoundState) (k : ℕ),
      List.Forall₂ (fun a b : Slacked => a.1 = b.1 ∧ a.2 ≤ b.2) s.tasks (bcliStep m s k).tasks := by
    intro s k
    unfold bcliStep
    split
    · exact List.forall₂_same.2 (fun _ _ => ⟨rfl, le_rfl⟩)
    · rename_i tk slack hk
      simp only
      obtain ⟨hlt, hget⟩ := List.getElem?_eq_some_iff.1 hk
      rw [List.forall₂_iff_get]
      refine ⟨by simp, fun i h1 h2 => ?_⟩
      simp only [List.get_eq_getElem, List.getElem_set]
      split_ifs with h
      · subst h; rw [hget]; exact ⟨rfl, le_max_left _ _⟩
      · exact ⟨rfl, le_rfl⟩
  have hfold : ∀ (l : List ℕ) (s : RoundState),
      List.Forall₂ (fun a b : Slacked => a.1 = b.1 ∧ a.2 ≤ b.2) s.tasks (l.foldl (bcliStep m) s).tasks := by
    intro l
    induction l with
    | nil => intro s; exact List.forall₂_same.2 (fun _ _ => ⟨rfl, le_rfl⟩)
    | cons a l ih =>
      intro s
      have h1 := hstep s a
      have h2 := ih (bcliStep m s a)
      rw [List.foldl_cons]
      rw [List.forall₂_iff_get] at h1 h2 ⊢
      refine ⟨h1.1.trans h2.1, fun i g1 g2 => ?_⟩
      have a1 := h1.2 i g1 (h1.1 ▸ g1)
      have a2 := h2.2 i (h1.1 ▸ g1) g2
      exact ⟨a1.1.trans a2.1, a1.2.trans a2.2⟩
  exact hfold _ ⟨tasks, true, false⟩

theorem bcliRounds_total (m limit : ℕ) : ∀ (fuel round : ℕ) (s : RoundState) (sl : Fin ts.length → ℤ),
    s.tasks = stateZ ts sl → (∀ i, sl i ≤ slackCap ts i) →
    (∑ i, slackCap ts i - ∑ i, sl i) + 2 ≤ (fuel : ℤ) ∨ (s.updated = false ∧ 1 ≤ fuel) →
    (bcliRounds m limit fuel round s).isSome
  | 0, round, s, sl, hs, hc, h => by
    have : ∑ i, sl i ≤ ∑ i, slackCap ts i := sum_le_sum (fun i _ => hc i)
    rcases h with h | h
    · push_cast at h; omega
    · omega
  | fuel + 1, round, s, sl, hs, hc, h => by
    unfold bcliRounds
    split_ifs with hcond
    · simp only [Bool.and_eq_true] at hcond
      have hr : (∑ i, slackCap ts i - ∑ i, sl i) + 2 ≤ ((fuel + 1 : ℕ) : ℤ) := by
        rcases h with h | h
        · exact h
        · rw [h.1] at hcond; simp at hcond
      rw [hs]
      obtain ⟨sl', h1, h2, h3, h4⟩ := bcliRound_dec m sl hc
      refine bcliRounds_total m limit fuel (round + 1) _ sl' h1 h3 ?_
      have hcap : ∑ i, sl i ≤ ∑ i, slackCap ts i := sum_le_sum (fun i _ => hc i)
      push_cast at hr
      by_cases hu : (bcliRound m (stateZ ts sl)).updated = true
      · left
        have := h4 hu
        omega
      · right
        exact ⟨by simpa using hu, by omega⟩
    · rfl

/-- The iterative slack analysis ends on every task set, for every round limit. -/
theorem C19_bcli_terminates (m : ℕ) (ts : List ITask) (limit : ℕ) :
    ∃ N, ∀ fuel ≥ N, (bcli fuel m ts limit).isSome := by
  refine ⟨(∑ i, slackCap ts i).toNat + 2, fun fuel hf => ?_⟩
  unfold bcli
  apply bcliRounds_total (ts := ts) m limit fuel 0 _ (fun _ => 0)
  · unfold stateZ
    apply List.ext_getElem <;> simp
  · intro i
    unfold slackCap
    positivity
  · left
    simp only [sum_const_zero]
    omega

end Verif.GEdf
