/-
Termination of the response-time analysis for global EDF (`schedcat/sched/edf/rta.py`).
-/
import Verif.Props.GedfRta
import Mathlib.Tactic.FinCases

namespace Verif.GEdf
open Verif.Spec Finset

variable {ts : List ITask} {m : ℕ}

theorem estN_mono (hp : Proper ts) (hd : Constrained ts) {E : Fin ts.length → ℕ} (hE : Between ts E)
    (k : Fin ts.length) {R R' : ℕ} (h : R ≤ R') : estN ts m E k R ≤ estN ts m E k R' := by
  unfold estN
  apply Nat.add_le_add_left
  apply Nat.div_le_div_right
  apply sum_le_sum
  intro i _
  have h1 : gwork (costs ts i) (periods ts i) (R + E i - costs ts i) ≤
      gwork (costs ts i) (periods ts i) (R' + E i - costs ts i) :=
    gwork_mono (hp.period i) ((hE i).1.trans ((hE i).2.trans (hd.le i))) (by omega)
  omega

/-- With smaller bounds for the other tasks, the estimate is smaller. -/
theorem estN_anti (hp : Proper ts) (hd : Constrained ts) {E E' : Fin ts.length → ℕ}
    (hE : Between ts E) (h : ∀ i, E' i ≤ E i) (k : Fin ts.length) (R : ℕ) :
    estN ts m E' k R ≤ estN ts m E k R := by
  unfold estN
  apply Nat.add_le_add_left
  apply Nat.div_le_div_right
  apply sum_le_sum
  intro i _
  have hi := h i
  have h1 : gwork (costs ts i) (periods ts i) (R + E' i - costs ts i) ≤
      gwork (costs ts i) (periods ts i) (R + E i - costs ts i) :=
    gwork_mono (hp.period i) ((hE i).1.trans ((hE i).2.trans (hd.le i))) (by omega)
  have h2 : ework (costs ts i) (periods ts i) (deadlines ts i - E' i) (deadlines ts k) ≤
      ework (costs ts i) (periods ts i) (deadlines ts i - E i) (deadlines ts k) := by
    unfold ework
    omega
  omega

/-- While the estimate is below the last value, the search descends to a fixed point. -/
theorem rtaLoop_desc (hp : Proper ts) (hd : Constrained ts) {E : Fin ts.length → ℕ}
    (hE : Between ts E) (k : Fin ts.length) (minDelta : ℕ) :
    ∀ (fuel last : ℕ), costs ts k ≤ last → estN ts m E k last ≤ last → last < costs ts k + fuel →
    (rtaLoop (ts.get k) ((stateOf ts E).eraseIdx k) m minDelta fuel last (estN ts m E k last)).isSome
  | 0, last, h1, _, h3 => by omega
  | fuel + 1, last, h1, h2, h3 => by
    unfold rtaLoop
    by_cases hc : (last : ℤ) ≠ (estN ts m E k last : ℤ) ∧ (estN ts m E k last : ℤ) ≤ (ts.get k).deadline
    · rw [if_pos hc]
      have hlt : estN ts m E k last < last := by
        have : last ≠ estN ts m E k last := by exact_mod_cast hc.1
        omega
      have hb : ¬ ((estN ts m E k last : ℤ) > last ∧ (estN ts m E k last : ℤ) - last < minDelta) := by omega
      simp only
      rw [if_neg hb]
      have hge := cost_le_estN (m := m) E k last
      rw [responseEstimate_eq hE k hge]
      exact rtaLoop_desc hp hd hE k minDelta fuel _ hge (estN_mono hp hd hE k hlt.le) (by omega)
    · rw [if_neg hc]; rfl

theorem rtaLoop_total (hp : Proper ts) (hd : Constrained ts) {E : Fin ts.length → ℕ}
    (hE : Between ts E) (k : Fin ts.length) (minDelta : ℕ) :
    ∀ (fuel last : ℕ), costs ts k ≤ last → last ≤ deadlines ts k →
    (deadlines ts k - last) + deadlines ts k + 2 ≤ fuel →
    (rtaLoop (ts.get k) ((stateOf ts E).eraseIdx k) m minDelta fuel last (estN ts m E k last)).isSome
  | 0, last, h1, _, h3 => by omega
  | fuel + 1, last, h1, h2, h3 => by
    rcases le_or_gt (estN ts m E k last) last with hle | hgt
    · exact rtaLoop_desc hp hd hE k minDelta (fuel + 1) last h1 hle (by omega)
    · unfold rtaLoop
      by_cases hc : (last : ℤ) ≠ (estN ts m E k last : ℤ) ∧ (estN ts m E k last : ℤ) ≤ (ts.get k).deadline
      · rw [if_pos hc]
        have hD : estN ts m E k last ≤ deadlines ts k := by
          have := hc.2
          have e : ((ts.get k).deadline : ℤ) = (deadlines ts k : ℤ) := rfl
          rw [e] at this; exact_mod_cast this
        obtain ⟨r, hr, hr1, hr2⟩ : ∃ r : ℕ, (if (estN ts m E k last : ℤ) > last ∧
            (estN ts m E k last : ℤ) - last < minDelta then min ((last : ℤ) + minDelta) ((ts.get k).deadline : ℤ)
            else (estN ts m E k last : ℤ)) = (r : ℤ) ∧ last < r ∧ r ≤ deadlines ts k := by
          split_ifs with hb
          · refine ⟨min (last + minDelta) (deadlines ts k), by push_cast; rfl, ?_, ?_⟩ <;> omega
          · exact ⟨_, rfl, hgt, hD⟩
        simp only
        rw [hr, responseEstimate_eq hE k (by omega)]
        exact rtaLoop_total hp hd hE k minDelta fuel r (by omega) hr2 (by omega)
      · rw [if_neg hc]; rfl

theorem rtaFixpoint_total (hp : Proper ts) (hd : Constrained ts) {E : Fin ts.length → ℕ}
    (hE : Between ts E) (k : Fin ts.length) (minDelta : ℕ) {fuel : ℕ}
    (hf : 2 * deadlines ts k + 2 ≤ fuel) :
    (rtaFixpoint fuel (ts.get k) ((stateOf ts E).eraseIdx k) m minDelta).isSome := by
  unfold rtaFixpoint
  have : ((ts.get k).cost : ℤ) = ((costs ts k : ℕ) : ℤ) := rfl
  rw [this, responseEstimate_eq hE k le_rfl]
  exact rtaLoop_total hp hd hE k minDelta fuel _ le_rfl ((hE k).1.trans (hE k).2) (by omega)

/-- The state holds bounds between costs and deadlines. -/
def StateB (ts : List ITask) (tasks : List Slacked) : Prop := ∃ E, tasks = stateOf ts E ∧ Between ts E

theorem rtaStep_total (hp : Proper ts) (hd : Constrained ts) {fuel minDelta : ℕ}
    (hfuel : ∀ i, 2 * deadlines ts i + 2 ≤ fuel) {s : RoundState} (hs : StateB ts s.tasks)
    (k : Fin ts.length) : ∃ s', rtaStep fuel m minDelta s k = some s' ∧ StateB ts s'.tasks := by
  obtain ⟨E, hst, hE⟩ := hs
  have htot := rtaFixpoint_total (m := m) hp hd hE k minDelta (hfuel k)
  obtain ⟨x, hx⟩ := Option.isSome_iff_exists.1 htot
  obtain ⟨R, rfl, hCR, -⟩ := rtaFixpoint_spec hE k hx
  unfold rtaStep
  rw [hst, stateOf_get]
  simp only [hx, Option.map_some]
  refine ⟨_, rfl, ?_⟩
  split_ifs with h1 h2
  · have hRD : R ≤ deadlines ts k := by exact_mod_cast h1
    exact ⟨Function.update E k R, stateOf_set E k R, between_update hE hCR hRD⟩
  · exact ⟨E, hst, hE⟩
  · exact ⟨E, rfl, hE⟩

theorem rtaRound_total (hp : Proper ts) (hd : Constrained ts) {fuel minDelta : ℕ}
    (hfuel : ∀ i, 2 * deadlines ts i + 2 ≤ fuel) :
    ∀ (l : List ℕ) (s : RoundState), (∀ k ∈ l, k < ts.length) → StateB ts s.tasks →
    ∃ s', l.foldlM (rtaStep fuel m minDelta) s = some s' ∧ StateB ts s'.tasks
  | [], s, _, hs => ⟨s, rfl, hs⟩
  | a :: l, s, hl, hs => by
    obtain ⟨s1, h1, hs1⟩ := rtaStep_total (m := m) (minDelta := minDelta) hp hd hfuel hs ⟨a, hl a List.mem_cons_self⟩
    obtain ⟨s', h', hs'⟩ := rtaRound_total hp hd hfuel l s1 (fun k hk => hl k (List.mem_cons_of_mem _ hk)) hs1
    refine ⟨s', ?_, hs'⟩
    simp only [List.foldlM_cons, Option.bind_eq_bind]
    simp only at h1
    rw [h1]
    exact h'

theorem rtaRounds_total (hp : Proper ts) (hd : Constrained ts) {fuel minDelta limit : ℕ}
    (hlim : 0 < limit) (hfuel : ∀ i, 2 * deadlines ts i + 2 ≤ fuel) :
    ∀ (rounds round : ℕ) (s : RoundState), StateB ts s.tasks → round ≤ limit → limit < round + rounds →
    (rtaRounds fuel m minDelta limit rounds round s).isSome
  | 0, round, s, _, h1, h2 => by omega
  | rounds + 1, round, s, hs, h1, h2 => by
    unfold rtaRounds
    split_ifs with hc
    · have hlt : round < limit := by
        simp only [Bool.and_eq_true, Bool.or_eq_true, beq_iff_eq, decide_eq_true_eq] at hc
        omega
      have hlen : s.tasks.length = ts.length := by
        obtain ⟨E, hE, _⟩ := hs
        rw [hE, stateOf_length]
      obtain ⟨s1, h1, hs1⟩ := rtaRound_total (m := m) (minDelta := minDelta) hp hd hfuel
        (List.range s.tasks.length) ⟨s.tasks, true, false⟩
        (fun k hk => by rw [hlen] at hk; exact List.mem_range.1 hk) hs
      unfold rtaRound
      rw [h1]
      exact rtaRounds_total hp hd hlim hfuel rounds (round + 1) s1 hs1 (by omega) (by omega)
    · rfl

/-! ### No round limit: the bounds only decrease -/

/-- Each bound is the deadline or an upper bound of its own estimate. -/
def Pre (m : ℕ) (ts : List ITask) (E : Fin ts.length → ℕ) : Prop :=
  ∀ i, E i = deadlines ts i ∨ estN ts m E i (E i) ≤ E i

theorem rtaLoop_le (hp : Proper ts) (hd : Constrained ts) {E : Fin ts.length → ℕ}
    (hE : Between ts E) (k : Fin ts.length) {minDelta : ℕ} (hδ : minDelta ≤ 1) {e : ℕ}
    (he : estN ts m E k e ≤ e) (hce : costs ts k ≤ e) :
    ∀ (fuel last : ℕ) (x : ℤ), last ≤ e → costs ts k ≤ last →
    rtaLoop (ts.get k) ((stateOf ts E).eraseIdx k) m minDelta fuel last (estN ts m E k last) = some x →
    x ≤ e
  | 0, last, x, _, _, h => by simp [rtaLoop] at h
  | fuel + 1, last, x, hl, hcl, h => by
    have hle : estN ts m E k last ≤ e := (estN_mono hp hd hE k hl).trans he
    unfold rtaLoop at h
    simp only at h
    split_ifs at h with hc hb
    · omega
    · have hge := cost_le_estN (m := m) E k last
      rw [responseEstimate_eq hE k hge] at h
      exact rtaLoop_le hp hd hE k hδ he hce fuel _ x hle hge h
    · have hx : (estN ts m E k last : ℤ) = x := by simpa using h
      rw [← hx]; exact_mod_cast hle

theorem rtaFixpoint_le (hp : Proper ts) (hd : Constrained ts) {E : Fin ts.length → ℕ}
    (hE : Between ts E) (k : Fin ts.length) {minDelta : ℕ} (hδ : minDelta ≤ 1) {e : ℕ}
    (he : estN ts m E k e ≤ e) (hce : costs ts k ≤ e) {fuel : ℕ} {x : ℤ}
    (h : rtaFixpoint fuel (ts.get k) ((stateOf ts E).eraseIdx k) m minDelta = some x) : x ≤ e := by
  unfold rtaFixpoint at h
  have : ((ts.get k).cost : ℤ) = ((costs ts k : ℕ) : ℤ) := rfl
  rw [this, responseEstimate_eq hE k le_rfl] at h
  exact rtaLoop_le hp hd hE k hδ he hce fuel _ x hce le_rfl h

/-- The state holds bounds that only decrease. -/
def StateP (m : ℕ) (ts : List ITask) (tasks : List Slacked) (E : Fin ts.length → ℕ) : Prop :=
  tasks = stateOf ts E ∧ Between ts E ∧ Pre m ts E

theorem pre_update (hp : Proper ts) (hd : Constrained ts) {E : Fin ts.length → ℕ}
    (hE : Between ts E) (hP : Pre m ts E) (k : Fin ts.length) {R : ℕ} (hR : R ≤ E k)
    (hfix : estN ts m E k R ≤ R) : Pre m ts (Function.update E k R) := by
  have hle : ∀ i, Function.update E k R i ≤ E i := by
    intro i
    by_cases h : i = k
    · subst h; simpa using hR
    · rw [Function.update_of_ne h]
  intro i
  by_cases h : i = k
  · subst h
    right
    rw [Function.update_self]
    exact (estN_anti hp hd hE hle i R).trans hfix
  · rw [Function.update_of_ne h]
    rcases hP i with h1 | h1
    · left; exact h1
    · right; exact (estN_anti hp hd hE hle i _).trans h1

theorem sum_update_lt {n : ℕ} (E : Fin n → ℕ) (k : Fin n) {R : ℕ} (h : R < E k) :
    ∑ i, Function.update E k R i + 1 ≤ ∑ i, E i := by
  rw [← add_sum_erase univ _ (mem_univ k), ← add_sum_erase univ E (mem_univ k), Function.update_self]
  have : ∑ i ∈ univ.erase k, Function.update E k R i = ∑ i ∈ univ.erase k, E i := by
    apply sum_congr rfl
    intro i hi
    rw [Function.update_of_ne (ne_of_mem_erase hi)]
  omega

theorem rtaStep_dec (hp : Proper ts) (hd : Constrained ts) {fuel minDelta : ℕ} (hδ : minDelta ≤ 1)
    {s s' : RoundState} {E : Fin ts.length → ℕ} (hs : StateP m ts s.tasks E)
    (k : Fin ts.length) (h : rtaStep fuel m minDelta s k = some s') :
    ∃ E', StateP m ts s'.tasks E' ∧ ∑ i, E' i ≤ ∑ i, E i ∧
      (s'.updated = true → s.updated = true ∨ ∑ i, E' i + 1 ≤ ∑ i, E i) := by
  obtain ⟨hst, hE, hP⟩ := hs
  unfold rtaStep at h
  rw [hst, stateOf_get] at h
  simp only [Option.map_eq_some_iff] at h
  obtain ⟨x, hx, hres⟩ := h
  obtain ⟨R, rfl, hCR, hfix⟩ := rtaFixpoint_spec hE k hx
  split_ifs at hres with h1 h2
  all_goals subst hres
  · have hRD : R ≤ deadlines ts k := by exact_mod_cast h1
    have hRE : R ≤ E k := by
      rcases hP k with h3 | h3
      · rw [h3]; exact hRD
      · have := rtaFixpoint_le hp hd hE k hδ h3 (hE k).1 hx
        exact_mod_cast this
    have hne : R ≠ E k := by
      rintro rfl
      exact h2 rfl
    have hsum := sum_update_lt E k (lt_of_le_of_ne hRE hne)
    exact ⟨Function.update E k R, ⟨stateOf_set E k R, between_update hE hCR hRD,
      pre_update hp hd hE hP k hRE (hfix hRD).le⟩, by omega, fun _ => Or.inr hsum⟩
  · exact ⟨E, ⟨hst, hE, hP⟩, le_rfl, fun h => Or.inl h⟩
  · exact ⟨E, ⟨rfl, hE, hP⟩, le_rfl, fun h => Or.inl h⟩

theorem rtaRound_dec (hp : Proper ts) (hd : Constrained ts) {fuel minDelta : ℕ} (hδ : minDelta ≤ 1) :
    ∀ (l : List ℕ) (s s' : RoundState) (E : Fin ts.length → ℕ), (∀ k ∈ l, k < ts.length) →
    StateP m ts s.tasks E → l.foldlM (rtaStep fuel m minDelta) s = some s' →
    ∃ E', StateP m ts s'.tasks E' ∧ ∑ i, E' i ≤ ∑ i, E i ∧
      (s'.updated = true → s.updated = true ∨ ∑ i, E' i + 1 ≤ ∑ i, E i)
  | [], s, s', E, _, hs, h => by
    simp only [List.foldlM_nil, Option.pure_def, Option.some.injEq] at h
    subst h
    exact ⟨E, hs, le_rfl, fun h => Or.inl h⟩
  | a :: l, s, s', E, hl, hs, h => by
    simp only [List.foldlM_cons, Option.bind_eq_bind, Option.bind_eq_some_iff] at h
    obtain ⟨s1, h1, h2⟩ := h
    obtain ⟨E1, g1, g2, g3⟩ := rtaStep_dec hp hd hδ hs ⟨a, hl a List.mem_cons_self⟩ h1
    obtain ⟨E2, k1, k2, k3⟩ := rtaRound_dec hp hd hδ l s1 s' E1
      (fun k hk => hl k (List.mem_cons_of_mem _ hk)) g1 h2
    refine ⟨E2, k1, k2.trans g2, fun hu => ?_⟩
    rcases k3 hu with h | h
    · rcases g3 h with h | h
      · exact Or.inl h
      · right; omega
    · right; omega

theorem rtaRounds_total_unlimited (hp : Proper ts) (hd : Constrained ts) {fuel minDelta : ℕ}
    (hδ : minDelta ≤ 1) (hfuel : ∀ i, 2 * deadlines ts i + 2 ≤ fuel) (limit : ℕ) :
    ∀ (rounds round : ℕ) (s : RoundState) (E : Fin ts.length → ℕ), StateP m ts s.tasks E →
    ∑ i, E i + 2 ≤ rounds ∨ (s.updated = false ∧ 1 ≤ rounds) →
    (rtaRounds fuel m minDelta limit rounds round s).isSome
  | 0, round, s, E, _, h => by omega
  | rounds + 1, round, s, E, hs, h => by
    unfold rtaRounds
    split_ifs with hc
    · simp only [Bool.and_eq_true] at hc
      have hlen : s.tasks.length = ts.length := by rw [hs.1, stateOf_length]
      have hl : ∀ k ∈ List.range s.tasks.length, k < ts.length := fun k hk => by
        rw [hlen] at hk; exact List.mem_range.1 hk
      obtain ⟨s1, h1, -⟩ := rtaRound_total (m := m) (minDelta := minDelta) hp hd hfuel
        (List.range s.tasks.length) ⟨s.tasks, true, false⟩ hl ⟨E, hs.1, hs.2.1⟩
      obtain ⟨E1, k1, k2, k3⟩ := rtaRound_dec hp hd hδ _ ⟨s.tasks, true, false⟩ s1 E hl hs h1
      unfold rtaRound
      rw [h1]
      refine rtaRounds_total_unlimited hp hd hδ hfuel limit rounds (round + 1) s1 E1 k1 ?_
      have hr : ∑ i, E i + 2 ≤ rounds + 1 := by
        rcases h with h | h
        · exact h
        · rw [h.1] at hc; simp at hc
      by_cases hu : s1.updated = true
      · left
        rcases k3 hu with h4 | h4
        · simp at h4
        · omega
      · right
        refine ⟨by simpa using hu, by omega⟩
    · rfl

/-- The response-time analysis ends on every set of feasible tasks with constrained
deadlines: for every positive round limit and every minimum step, and without a round
limit for a minimum step of at most one. -/
theorem C19_rta_terminates_partial (m : ℕ) (ts : List ITask) (hp : Proper ts) (hd : Constrained ts)
    (hf : Feasible ts) (limit minStep : ℕ) (hl : 0 < limit ∨ minStep ≤ 1) :
    ∃ N, ∀ fuel ≥ N, (rta fuel m ts limit minStep).isSome := by
  refine ⟨limit + 2 * ∑ i, deadlines ts i + 2, fun fuel hfuel => ?_⟩
  have hfuel' : ∀ i, 2 * deadlines ts i + 2 ≤ fuel := by
    intro i
    have := single_le_sum (f := deadlines ts) (fun _ _ => Nat.zero_le _) (mem_univ i)
    omega
  unfold rta rtaRun
  rw [Option.isSome_map]
  have hB : Between ts (deadlines ts) := fun i => ⟨hf.le i, le_rfl⟩
  rcases hl with hl | hl
  · exact rtaRounds_total hp hd hl hfuel' _ _ _ ⟨_, stateOf_init ts, hB⟩ (Nat.zero_le _) (by omega)
  · exact rtaRounds_total_unlimited hp hd hl hfuel' limit _ _ _ (deadlines ts)
      ⟨stateOf_init ts, hB, fun i => Or.inl rfl⟩ (Or.inl (by omega))

/-- Two processors, three feasible tasks. -/
example : Proper [⟨2, 7, 6⟩, ⟨4, 9, 7⟩, ⟨3, 9, 8⟩] ∧ Constrained [⟨2, 7, 6⟩, ⟨4, 9, 7⟩, ⟨3, 9, 8⟩] ∧
    Feasible [⟨2, 7, 6⟩, ⟨4, 9, 7⟩, ⟨3, 9, 8⟩] ∧
    rtaBoundResponseTimes 30 2 [⟨2, 7, 6⟩, ⟨4, 9, 7⟩, ⟨3, 9, 8⟩] = some (some [5, 6, 5]) := by
  decide +kernel

/-- A fixed point found for task `k` under any slacks between zero and
`deadline - cost` is between cost and deadline and equals its own estimate. -/
theorem C19_rta_fixpoint (m : ℕ) (tasks : List Slacked)
    (hs : ∀ t ∈ tasks, 0 ≤ t.2 ∧ t.2 ≤ (t.1.deadline : ℤ) - t.1.cost) (k : Fin tasks.length)
    (fuel minDelta : ℕ) (r : ℤ)
    (h : rtaFixpoint fuel (tasks.get k).1 (tasks.eraseIdx k) m minDelta = some r)
    (hr : r ≤ (tasks.get k).1.deadline) :
    (tasks.get k).1.cost ≤ r ∧ responseEstimate (tasks.get k).1 (tasks.eraseIdx k) m r = r := by
  set ts := tasks.map Prod.fst with hts
  have hlen : ts.length = tasks.length := by simp [hts]
  set E : Fin ts.length → ℕ := fun i =>
    (((tasks.get (i.cast hlen)).1.deadline : ℤ) - (tasks.get (i.cast hlen)).2).toNat with hEdef
  have hget : ∀ i : Fin ts.length, ts.get i = (tasks.get (i.cast hlen)).1 := by
    intro i; simp [hts]
  have hEz : ∀ i : Fin ts.length, (E i : ℤ) = ((tasks.get (i.cast hlen)).1.deadline : ℤ) -
      (tasks.get (i.cast hlen)).2 := by
    intro i
    have := hs _ (List.get_mem tasks (i.cast hlen))
    simp only [hEdef]
    omega
  have hE : Between ts E := by
    intro i
    have h1 := hs _ (List.get_mem tasks (i.cast hlen))
    have h2 := hEz i
    unfold costs deadlines
    rw [hget]
    omega
  have hst : tasks = stateOf ts E := by
    unfold stateOf
    apply List.ext_getElem
    · simp [hlen]
    · intro i h1 h2
      rw [List.getElem_ofFn]
      have h3 := hEz ⟨i, by omega⟩
      unfold deadlines
      rw [hget, h3]
      ext <;> simp
  have hk : (tasks.get k).1 = ts.get (k.cast hlen.symm) := by rw [hget]; simp
  rw [hk] at h hr ⊢
  have he : tasks.eraseIdx k = (stateOf ts E).eraseIdx (k.cast hlen.symm) :=
    congrArg (fun l : List Slacked => l.eraseIdx k.1) hst
  rw [he] at h ⊢
  obtain ⟨R, rfl, h1, h2⟩ := rtaFixpoint_spec hE _ h
  refine ⟨by exact_mod_cast h1, ?_⟩
  rw [responseEstimate_eq hE _ h1]
  have := h2 (by exact_mod_cast hr)
  rw [this]

/-! ### Infeasible tasks: the search can diverge -/

theorem rtaLoop_diverges (tk : ITask) (others : List Slacked) (m minDelta : ℕ) (b : ℤ)
    (hb : b ≤ tk.deadline) (h : ∀ r : ℤ, r ≤ b → responseEstimate tk others m r < r) :
    ∀ (fuel : ℕ) (last : ℤ), last ≤ b →
    rtaLoop tk others m minDelta fuel last (responseEstimate tk others m last) = none
  | 0, last, _ => rfl
  | fuel + 1, last, hl => by
    have h1 := h last hl
    unfold rtaLoop
    rw [if_pos ⟨by omega, by omega⟩]
    simp only
    rw [if_neg (by omega)]
    exact rtaLoop_diverges tk others m minDelta b hb h fuel _ (by omega)

/-- Four tasks, two of them infeasible, on which the search for the first task never
ends (in Python it goes on until a division overflows). -/
def divergent : List ITask := [⟨1, 7, 3⟩, ⟨14, 21, 2⟩, ⟨10, 24, 5⟩, ⟨1, 3, 2⟩]

/-- The analysis does not end on every task set. -/
theorem C19_rta_diverges : Proper divergent ∧ Constrained divergent ∧
    ∀ fuel limit minStep, rta fuel 2 divergent limit minStep = none := by
  refine ⟨by decide, by decide, ?_⟩
  have key : ∀ r : ℤ, r ≤ -3 → responseEstimate ⟨1, 7, 3⟩
      [(⟨14, 21, 2⟩, 0), (⟨10, 24, 5⟩, 0), (⟨1, 3, 2⟩, 0)] 2 r < r := by
    intro r hr
    unfold responseEstimate
    simp only [List.map_cons, List.map_nil, List.sum_cons, List.sum_nil]
    generalize rtaWork r (⟨14, 21, 2⟩, 0) = a
    generalize rtaWork r (⟨10, 24, 5⟩, 0) = b
    generalize rtaWork r (⟨1, 3, 2⟩, 0) = c
    generalize edfWork _ (⟨14, 21, 2⟩, 0) = a'
    generalize edfWork _ (⟨10, 24, 5⟩, 0) = b'
    generalize edfWork _ (⟨1, 3, 2⟩, 0) = c'
    push_cast
    omega
  intro fuel limit minStep
  have hfix : rtaFixpoint fuel ⟨1, 7, 3⟩ [(⟨14, 21, 2⟩, 0), (⟨10, 24, 5⟩, 0), (⟨1, 3, 2⟩, 0)] 2 minStep
      = none := by
    unfold rtaFixpoint
    rcases fuel with _ | _ | fuel
    · rfl
    · rfl
    · have e1 : responseEstimate ⟨1, 7, 3⟩ [(⟨14, 21, 2⟩, 0), (⟨10, 24, 5⟩, 0), (⟨1, 3, 2⟩, 0)] 2
          ((1 : ℕ) : ℤ) = -1 := by decide
      have e2 : responseEstimate ⟨1, 7, 3⟩ [(⟨14, 21, 2⟩, 0), (⟨10, 24, 5⟩, 0), (⟨1, 3, 2⟩, 0)] 2
          (-1) = -3 := by decide
      simp only [e1]
      unfold rtaLoop
      rw [if_pos (by decide)]
      simp only
      rw [if_neg (by omega), e2]
      unfold rtaLoop
      rw [if_pos (by decide)]
      simp only
      rw [if_neg (by omega)]
      exact rtaLoop_diverges _ _ 2 minStep (-3) (by decide) key fuel _ le_rfl
  unfold rta rtaRun
  rcases fuel with _ | fuel
  · rfl
  · unfold rtaRounds
    by_cases hl : (limit == 0 || decide (0 < limit)) = true
    · rw [if_pos (by simpa using hl)]
      have : rtaRound (fuel + 1) 2 minStep (divergent.map (fun t => (t, (0 : ℤ)))) = none := by
        unfold rtaRound divergent
        simp only [List.map_cons, List.map_nil, List.length_cons, List.length_nil]
        rw [List.range_succ_eq_map, List.foldlM_cons]
        have : rtaStep (fuel + 1) 2 minStep ⟨[(⟨1, 7, 3⟩, 0), (⟨14, 21, 2⟩, 0), (⟨10, 24, 5⟩, 0), (⟨1, 3, 2⟩, 0)],
            true, false⟩ 0 = none := by
          unfold rtaStep
          simp only [List.getElem?_cons_zero, List.eraseIdx_cons_zero]
          rw [hfix]; rfl
        rw [this]; rfl
      rw [this]; rfl
    · exfalso
      apply hl
      rcases limit with _ | l <;> simp

end Verif.GEdf
