/-
C47, C67, C68, C69: the native G-EDF simulator (`native/include/schedule_sim.h`,
`native/src/edf/sim.cpp`, `schedcat/sim/edf.py`).

The pending queue is any `pick` that fulfils `PickOk` (some element with the
earliest deadline is on top).  The simulated workload is the synchronous
periodic one, in which every job executes for its WCET.
-/
import Verif.Lemmas.EdfSimRun
import Mathlib.Algebra.BigOperators.Group.Finset.Basic
import Mathlib.Data.Fin.VecNotation

namespace Verif.EdfSim
open Verif Verif.Native Verif.Spec

variable {n : ℕ}

/-- The workload that is simulated. -/
abbrev simulated (ts : Fin n → Task) : Workload n :=
  periodic (fun i => (ts i).wcet) (fun i => (ts i).period)

/-- Absolute deadline of a job of the simulated workload. -/
abbrev absDeadline (ts : Fin n → Task) (j : Spec.Job n) : ℕ :=
  (simulated ts).deadline (fun i => (ts i).deadline) j

/-- A queue that takes the first of the jobs with the earliest deadline. -/
def firstMin : Pick n := fun _ dl l =>
  l.foldl (fun acc i => match acc with
    | none => some i
    | some j => if dl i < dl j then some i else some j) none

theorem firstMin_ok : PickOk (firstMin (n := n)) := by
  intro k dl l
  have key : ∀ (l : List (Fin n)) (a : Fin n), ∃ i, l.foldl (fun acc i => match acc with
      | none => some i
      | some j => if dl i < dl j then some i else some j) (some a) = some i ∧
      (i = a ∨ i ∈ l) ∧ dl i ≤ dl a ∧ ∀ j ∈ l, dl i ≤ dl j := by
    intro l
    induction l with
    | nil => intro a; exact ⟨a, rfl, Or.inl rfl, le_rfl, by simp⟩
    | cons b bs ih =>
      intro a
      rw [List.foldl_cons]
      simp only
      split_ifs with h
      · obtain ⟨i, h1, h2, h3, h4⟩ := ih b
        refine ⟨i, h1, Or.inr ?_, h3.trans h.le, ?_⟩
        · rcases h2 with rfl | h2 <;> simp [*]
        · intro j hj
          rcases List.mem_cons.1 hj with rfl | hj
          · exact h3
          · exact h4 j hj
      · obtain ⟨i, h1, h2, h3, h4⟩ := ih a
        refine ⟨i, h1, ?_, h3, ?_⟩
        · rcases h2 with rfl | h2 <;> simp [*]
        · intro j hj
          rcases List.mem_cons.1 hj with rfl | hj
          · exact h3.trans (not_lt.1 h)
          · exact h4 j hj
  constructor
  · rintro rfl; rfl
  · intro hl
    cases l with
    | nil => exact absurd rfl hl
    | cons a as =>
      obtain ⟨i, h1, h2, h3, h4⟩ := key as a
      refine ⟨i, ?_, h1, ?_⟩
      · rcases h2 with rfl | h2 <;> simp [*]
      · intro j hj
        rcases List.mem_cons.1 hj with rfl | hj
        · exact h3
        · exact h4 j hj

variable {ts : Fin n → Task} {m : ℕ} {pick : Pick n} {pre : Bool}

/-- What a late completion that was reported means. -/
theorem late_call (hpick : PickOk pick) (hC : ∀ i, 0 < (ts i).wcet) {u : ℕ} {c : Call n}
    (hc : c ∈ (stateAt ts m pick pre u).calls) :
    FinishesAt (simulated ts) (simSchedule ts m pick pre) (c.task, c.seqno - 1) c.now ∧
      absDeadline ts (c.task, c.seqno - 1) = c.deadline ∧ c.now ≤ u := by
  obtain ⟨h1, h2, h3, h4⟩ := (calls_sim hpick hC u).sound c hc
  exact ⟨h4, h2.symm, h3⟩

theorem call_of_completed (hpick : PickOk pick) (hC : ∀ i, 0 < (ts i).wcet) {u : ℕ}
    {j : Spec.Job n} (h : Completed (simulated ts) (simSchedule ts m pick pre) j u) :
    ∃ c ∈ (stateAt ts m pick pre u).calls, (c.task, c.seqno - 1) = j := by
  obtain ⟨i, k⟩ := j
  obtain ⟨c, hc, h1, h2⟩ := (calls_sim hpick hC u).complete i k
    ((completed_sim hpick hC i k u).1 h)
  exact ⟨c, hc, by rw [h1, h2]; rfl⟩

/-- If no completion up to `u` was late, all jobs complete by `u` met their
deadlines. -/
theorem met_of_not_dmissed (hpick : PickOk pick) (hC : ∀ i, 0 < (ts i).wcet) {u : ℕ}
    (h : dmissed (stateAt ts m pick pre u).calls = false) {j : Spec.Job n}
    (hj : Completed (simulated ts) (simSchedule ts m pick pre) j u) :
    Completed (simulated ts) (simSchedule ts m pick pre) j (absDeadline ts j) := by
  obtain ⟨c, hc, rfl⟩ := call_of_completed hpick hC hj
  obtain ⟨h1, h2, -⟩ := late_call hpick hC hc
  unfold dmissed at h
  rw [List.any_eq_false] at h
  have := h c hc
  rw [decide_eq_true_eq, not_lt] at this
  rw [h2]
  exact h1.1.mono this

/-- **C47.**  For every task set (positive costs), number of processors,
behaviour of the queue and length of the interval, the simulation ends, and
what the API reports is true of a legal global EDF schedule:

* `edf_misses_deadline` returns `True` only if some job of that schedule
  finishes after its deadline, and `False` only if every job that finishes
  within the simulated interval met its deadline. -/
theorem C47_misses_deadline (hm : 1 ≤ m) (hC : ∀ i, 0 < (ts i).wcet) (hpick : PickOk pick) :
    ∃ σ : Schedule n, ValidSchedule m (simulated ts) σ ∧
      EDF m (simulated ts) (fun i => (ts i).deadline) σ ∧
      ∀ end_ fuel, end_ + 3 ≤ fuel → ∃ b, missesDeadline fuel m ts pick end_ = some b ∧
        (b = true → ∃ j t, FinishesAt (simulated ts) σ j t ∧ absDeadline ts j < t) ∧
        (b = false → ∀ j, Completed (simulated ts) σ j end_ →
          Completed (simulated ts) σ j (absDeadline ts j)) := by
  refine ⟨simSchedule ts m pick true, valid_sim hpick hC, edf_sim hpick hC, ?_⟩
  intro end_ fuel hf
  obtain ⟨s, u, h1, h2, h3, -⟩ := run_sim (pre := true) hm hpick hC dmissed rfl end_ fuel hf
  refine ⟨dmissed s.calls, by unfold missesDeadline; rw [h1]; rfl, ?_, ?_⟩
  · intro hd
    unfold dmissed at hd
    rw [List.any_eq_true] at hd
    obtain ⟨c, hc, hcl⟩ := hd
    rw [h2] at hc
    obtain ⟨g1, g2, -⟩ := late_call hpick hC hc
    exact ⟨_, _, g1, by rw [g2]; simpa using hcl⟩
  · intro hd j hj
    rcases h3 with h3 | h3
    · rw [h2] at hd
      exact met_of_not_dmissed hpick hC hd (hj.mono h3.le)
    · rw [hd] at h3; simp at h3

/-- **C47**, the use made of the simulator: a set that is schedulable under
global EDF is never reported to miss a deadline; a reported miss is a
counterexample to schedulability. -/
theorem C47_sound (hm : 1 ≤ m) (hC : ∀ i, 0 < (ts i).wcet) (hpick : PickOk pick)
    {end_ fuel : ℕ} (h : missesDeadline fuel m ts pick end_ = some true) :
    ¬ EdfSchedulable m (fun i => (ts i).wcet) (fun i => (ts i).period)
      (fun i => (ts i).deadline) := by
  intro hs
  have hmeets := hs _ _ (periodic_sporadic _ _) (valid_sim (pre := true) hpick hC)
    (edf_sim (m := m) hpick hC)
  -- more fuel does not change the answer
  have mono : ∀ (f g : ℕ) (s : Sim n) (r : Sim n), f ≤ g →
      simulateUntil ts pick true dmissed end_ f s = some r →
      simulateUntil ts pick true dmissed end_ g s = some r := by
    intro f
    induction f with
    | zero => intro g s r _ h; simp [simulateUntil] at h
    | succ f ih =>
      intro g s r hg h
      obtain ⟨g, rfl⟩ : ∃ g', g = g' + 1 := ⟨g - 1, by omega⟩
      rw [simulateUntil] at h ⊢
      split_ifs at h ⊢ with hc
      · cases hne : s.nextEvent with
        | none => rw [hne] at h; exact h
        | some t => rw [hne] at h; exact ih g _ r (by omega) h
      · exact h
  unfold missesDeadline at h
  rw [Option.map_eq_some_iff] at h
  obtain ⟨r, hr, hd⟩ := h
  obtain ⟨s, u, h1, h2, h3, -⟩ := run_sim (pre := true) hm hpick hC dmissed rfl end_
    (max fuel (end_ + 3)) (le_max_right _ _)
  have := mono _ _ _ _ (le_max_left fuel (end_ + 3)) hr
  rw [h1, Option.some.injEq] at this
  rw [← this, h2] at hd
  unfold dmissed at hd
  rw [List.any_eq_true] at hd
  obtain ⟨c, hc, hcl⟩ := hd
  obtain ⟨g1, g2, -⟩ := late_call hpick hC hc
  have hlt : absDeadline ts (c.task, c.seqno - 1) < c.now := by rw [g2]; simpa using hcl
  exact g1.2 _ hlt (hmeets _)

/-- **C47**, `edf_first_violation`: a result other than 0 is the deadline of a
job that finishes late, and no job finished late before that job did.  If no
deadline is 0, the result 0 means that every job that finishes within the
interval met its deadline. -/
theorem C47_first_violation (hm : 1 ≤ m) (hC : ∀ i, 0 < (ts i).wcet) (hpick : PickOk pick) :
    ∃ σ : Schedule n, ValidSchedule m (simulated ts) σ ∧
      EDF m (simulated ts) (fun i => (ts i).deadline) σ ∧
      ∀ end_ fuel, end_ + 3 ≤ fuel → ∃ v, firstViolation fuel m ts pick end_ = some v ∧
        (v ≠ 0 → ∃ j t, absDeadline ts j = v ∧ v < t ∧ FinishesAt (simulated ts) σ j t ∧
          ∀ j' t', FinishesAt (simulated ts) σ j' t' → t' < t → t' ≤ absDeadline ts j') ∧
        (v = 0 → (∀ i, 0 < (ts i).deadline) → ∀ j, Completed (simulated ts) σ j end_ →
          Completed (simulated ts) σ j (absDeadline ts j)) := by
  refine ⟨simSchedule ts m pick true, valid_sim hpick hC, edf_sim hpick hC, ?_⟩
  intro end_ fuel hf
  obtain ⟨s, u, h1, h2, h3, h4⟩ := run_sim (pre := true) hm hpick hC dmissed rfl end_ fuel hf
  -- what `when_missed` holds
  have hwm : ∀ (l : List (Call n)) (acc : Option ℕ),
      (l.any (fun c => c.deadline < c.now) = false ∧
        l.foldl (fun acc c => if c.deadline < c.now then some c.deadline else acc) acc = acc) ∨
      ∃ c ∈ l, c.deadline < c.now ∧
        l.foldl (fun acc c => if c.deadline < c.now then some c.deadline else acc) acc =
          some c.deadline := by
    intro l
    induction l with
    | nil => intro acc; exact Or.inl ⟨rfl, rfl⟩
    | cons c cs ih =>
      intro acc
      by_cases hc : c.deadline < c.now
      · rcases ih (some c.deadline) with ⟨g1, g2⟩ | ⟨d, hd, g1, g2⟩
        · exact Or.inr ⟨c, by simp, hc, by rw [List.foldl_cons, if_pos hc, g2]⟩
        · exact Or.inr ⟨d, by simp [hd], g1, by rw [List.foldl_cons, if_pos hc, g2]⟩
      · rcases ih acc with ⟨g1, g2⟩ | ⟨d, hd, g1, g2⟩
        · exact Or.inl ⟨by simp [hc, g1], by rw [List.foldl_cons, if_neg hc, g2]⟩
        · exact Or.inr ⟨d, by simp [hd], g1, by rw [List.foldl_cons, if_neg hc, g2]⟩
  have hw : dmissed s.calls = false ∨ ∃ c ∈ s.calls, c.deadline < c.now ∧
      whenMissed s.calls = some c.deadline := by
    rcases hwm s.calls none with h | h
    · exact Or.inl h.1
    · exact Or.inr h
  refine ⟨if dmissed s.calls then (whenMissed s.calls).getD 0 else 0,
    by unfold firstViolation; rw [h1]; rfl, ?_, ?_⟩
  · intro hv
    rcases hw with hw | ⟨c, hc, hcl, hcw⟩
    · rw [hw] at hv; simp at hv
    · have hd : dmissed s.calls = true := by
        unfold dmissed; rw [List.any_eq_true]; exact ⟨c, hc, by simpa using hcl⟩
      rw [if_pos hd, hcw, Option.getD_some]
      rw [h2] at hc
      obtain ⟨g1, g2, g3⟩ := late_call hpick hC hc
      refine ⟨_, _, g2, hcl, g1, ?_⟩
      intro j' t' hj' ht'
      by_contra hlate
      rw [not_le] at hlate
      have hnm := met_of_not_dmissed hpick hC (h4 t' (ht'.trans_le g3)) hj'.1
      exact hj'.2 _ hlate hnm
  · intro hv hD j hj
    have hd : dmissed s.calls = false := by
      rcases hw with hw | ⟨c, hc, hcl, hcw⟩
      · exact hw
      · exfalso
        have hd : dmissed s.calls = true := by
          unfold dmissed; rw [List.any_eq_true]; exact ⟨c, hc, by simpa using hcl⟩
        rw [if_pos hd, hcw, Option.getD_some] at hv
        rw [h2] at hc
        have := ((calls_sim hpick hC u).sound c hc).2.1
        have hp := hD c.task
        omega
    rcases h3 with h3 | h3
    · rw [h2] at hd
      exact met_of_not_dmissed hpick hC hd (hj.mono h3.le)
    · rw [hd] at h3; simp at h3

theorem stats_fold (l : List (Call n)) : ∀ st : Stats,
    (l.foldl Stats.add st).numTardy = st.numTardy + l.countP (fun c => c.deadline < c.now) ∧
    (l.foldl Stats.add st).numOk = st.numOk + l.countP (fun c => !decide (c.deadline < c.now)) ∧
    (l.foldl Stats.add st).totalTardiness = st.totalTardiness +
      (l.map (fun c => c.now - c.deadline)).sum ∧
    (st.maxTardiness ≤ (l.foldl Stats.add st).maxTardiness ∧
      (∀ c ∈ l, c.now - c.deadline ≤ (l.foldl Stats.add st).maxTardiness) ∧
      ((l.foldl Stats.add st).maxTardiness = st.maxTardiness ∨
        ∃ c ∈ l, (l.foldl Stats.add st).maxTardiness = c.now - c.deadline)) := by
  induction l with
  | nil => intro st; simp
  | cons c cs ih =>
    intro st
    rw [List.foldl_cons]
    obtain ⟨h1, h2, h3, h4, h5, h6⟩ := ih (st.add c)
    rw [h1, h2, h3]
    by_cases hc : c.deadline < c.now
    · have e : st.add c = { st with
          numTardy := st.numTardy + 1
          totalTardiness := st.totalTardiness + (c.now - c.deadline)
          maxTardiness := max (c.now - c.deadline) st.maxTardiness
          firstMiss := if st.firstMiss = 0 then c.deadline else st.firstMiss } := by
        unfold Stats.add; rw [if_pos hc]
      rw [e] at h4 h5 h6 ⊢
      simp only at h4 h5 h6 ⊢
      refine ⟨?_, ?_, ?_, (le_max_right _ _).trans h4, ?_, ?_⟩
      · simp [hc]; omega
      · simp [hc]
      · simp; omega
      · intro d hd
        rcases List.mem_cons.1 hd with rfl | hd
        · exact (le_max_left _ _).trans h4
        · exact h5 d hd
      · rcases h6 with h6 | ⟨d, hd, h6⟩
        · rcases le_total (c.now - c.deadline) st.maxTardiness with hle | hle
          · left; rw [h6, max_eq_right hle]
          · right; exact ⟨c, by simp, by rw [h6, max_eq_left hle]⟩
        · right; exact ⟨d, by simp [hd], h6⟩
    · have e : st.add c = { st with numOk := st.numOk + 1 } := by
        unfold Stats.add; rw [if_neg hc]
      rw [e] at h4 h5 h6 ⊢
      simp only at h4 h5 h6 ⊢
      refine ⟨?_, ?_, ?_, h4, ?_, ?_⟩
      · simp [hc]
      · rw [List.countP_cons]; simp [hc]; omega
      · simp; omega
      · intro d hd
        rcases List.mem_cons.1 hd with rfl | hd
        · omega
        · exact h5 d hd
      · rcases h6 with h6 | ⟨d, hd, h6⟩
        · exact Or.inl h6
        · exact Or.inr ⟨d, by simp [hd], h6⟩

/-- **C47**, `edf_observe_tardiness`: the statistics are those of the jobs that
finish up to some time after the end of the interval (the simulation stops with
the first event after it). -/
theorem C47_tardiness (hm : 1 ≤ m) (hC : ∀ i, 0 < (ts i).wcet) (hpick : PickOk pick) :
    ∃ σ : Schedule n, ValidSchedule m (simulated ts) σ ∧
      EDF m (simulated ts) (fun i => (ts i).deadline) σ ∧
      ∀ end_ fuel, end_ + 3 ≤ fuel → ∃ st, observeTardiness fuel m ts pick end_ = some st ∧
        ∃ (until_ : ℕ) (done : Finset (Spec.Job n)) (finish : Spec.Job n → ℕ),
          end_ < until_ ∧ (∀ j, j ∈ done ↔ Completed (simulated ts) σ j until_) ∧
          (∀ j ∈ done, FinishesAt (simulated ts) σ j (finish j)) ∧
          st.numTardy = (done.filter (fun j => absDeadline ts j < finish j)).card ∧
          st.numOk = (done.filter (fun j => finish j ≤ absDeadline ts j)).card ∧
          st.totalTardiness = ∑ j ∈ done, (finish j - absDeadline ts j) ∧
          (∀ j ∈ done, finish j - absDeadline ts j ≤ st.maxTardiness) ∧
          (st.maxTardiness = 0 ∨ ∃ j ∈ done, st.maxTardiness = finish j - absDeadline ts j) := by
  refine ⟨simSchedule ts m pick true, valid_sim hpick hC, edf_sim hpick hC, ?_⟩
  intro end_ fuel hf
  obtain ⟨s, u, h1, h2, h3, -⟩ := run_sim (pre := true) hm hpick hC (fun _ => false) rfl end_ fuel hf
  have hu : end_ < u := by simpa using h3
  refine ⟨s.calls.foldl Stats.add ⟨0, 0, 0, 0, 0⟩, by unfold observeTardiness; rw [h1]; rfl, ?_⟩
  have hcok := calls_sim (m := m) (pre := true) hpick hC u
  obtain ⟨f1, f2, f3, f4, f5, f6⟩ := stats_fold s.calls ⟨0, 0, 0, 0, 0⟩
  rw [f1, f2, f3]
  rw [h2] at f5 f6 ⊢
  set l := (stateAt ts m pick true u).calls with hl
  set job : Call n → Spec.Job n := fun c => (c.task, c.seqno - 1) with hjob
  set σ := simSchedule ts m pick true with hσ
  classical
  let finish : Spec.Job n → ℕ := fun j =>
    if h : ∃ t, FinishesAt (simulated ts) σ j t then h.choose else 0
  have hfin : ∀ c ∈ l, finish (job c) = c.now := by
    intro c hc
    obtain ⟨g1, -, -⟩ := late_call hpick hC hc
    have hex : ∃ t, FinishesAt (simulated ts) σ (job c) t := ⟨c.now, g1⟩
    show (if h : ∃ t, FinishesAt (simulated ts) σ (job c) t then h.choose else 0) = _
    rw [dif_pos hex]
    exact FinishesAt.unique hex.choose_spec g1
  have hdl : ∀ c ∈ l, absDeadline ts (job c) = c.deadline := fun c hc =>
    (late_call hpick hC hc).2.1
  have hnd : (l.map job).Nodup := by
    have h0 := hcok.nodup
    rw [← hl] at h0
    refine List.Nodup.map_on ?_ h0.of_map
    intro x hx y hy hxy
    refine List.inj_on_of_nodup_map h0 hx hy ?_
    have h1 := (hcok.sound x hx).1
    have h2 := (hcok.sound y hy).1
    simp only [hjob, Prod.mk.injEq] at hxy ⊢
    exact ⟨hxy.1, by omega⟩
  have hcard : ∀ (p : Spec.Job n → Prop) [DecidablePred p], ((l.map job).toFinset.filter p).card =
      l.countP (fun c => decide (p (job c))) := by
    intro p _
    have : (l.map job).toFinset.filter p = ((l.map job).filter (fun j => decide (p j))).toFinset := by
      ext j; simp
    rw [this, List.toFinset_card_of_nodup (hnd.filter _), List.filter_map, List.length_map,
      ← List.countP_eq_length_filter]
    rfl
  refine ⟨u, (l.map job).toFinset, finish, hu, ?_, ?_, ?_, ?_, ?_, ?_, ?_⟩
  · intro j
    rw [List.mem_toFinset, List.mem_map]
    constructor
    · rintro ⟨c, hc, rfl⟩
      obtain ⟨g1, -, g3⟩ := late_call hpick hC hc
      exact g1.1.mono g3
    · intro hj
      exact call_of_completed hpick hC hj
  · intro j hj
    rw [List.mem_toFinset, List.mem_map] at hj
    obtain ⟨c, hc, rfl⟩ := hj
    rw [hfin c hc]
    exact (late_call hpick hC hc).1
  · rw [Nat.zero_add, hcard]
    refine List.countP_congr (fun c hc => ?_)
    simp [Function.comp, hfin c hc, hdl c hc]
  · rw [Nat.zero_add, hcard]
    refine List.countP_congr (fun c hc => ?_)
    simp [Function.comp, hfin c hc, hdl c hc]
  · rw [List.sum_toFinset _ hnd, List.map_map, Nat.zero_add]
    congr 1
    refine List.map_congr_left (fun c hc => ?_)
    simp [Function.comp, hfin c hc, hdl c hc]
  · intro j hj
    rw [List.mem_toFinset, List.mem_map] at hj
    obtain ⟨c, hc, rfl⟩ := hj
    rw [hfin c hc, hdl c hc]
    exact f5 c hc
  · rcases f6 with f6 | ⟨c, hc, f6⟩
    · exact Or.inl f6
    · refine Or.inr ⟨job c, ?_, ?_⟩
      · rw [List.mem_toFinset]; exact List.mem_map_of_mem hc
      · rw [hfin c hc, hdl c hc]; exact f6

/-- The hypotheses of the C47 theorems hold for a set of three tasks on two
processors, with one late and four punctual jobs in the interval. -/
example : let ts : Fin 3 → Task := ![Task.init 4 6 5, Task.init 4 6 6, Task.init 3 12 6]
    1 ≤ 2 ∧ (∀ i, 0 < (ts i).wcet) ∧ PickOk (firstMin (n := 3)) ∧
    observeTardiness 13 2 ts firstMin 10 = some ⟨1, 4, 1, 1, 6⟩ ∧
    missesDeadline 13 2 ts firstMin 10 = some true ∧
    missesDeadline 8 2 ts firstMin 5 = some false ∧
    firstViolation 13 2 ts firstMin 10 = some 6 :=
  ⟨by decide, by decide, firstMin_ok, by decide +kernel, by decide +kernel, by decide +kernel,
    by decide +kernel⟩

/-! ### C67: the first miss -/

/-- **C67, negated.**  `edf_first_violation` (`time_of_first_miss`) does not
return the earliest missed deadline: with a job of cost 30 and deadline 10, and
one of cost 25 and deadline 20, it returns 20, although no schedule whatever
completes the first job by time 10. -/
theorem C67_first_miss_not_earliest :
    ∃ (ts : Fin 2 → Task) (pick : Pick 2), (∀ i, 0 < (ts i).wcet) ∧ PickOk pick ∧
      firstViolation 103 2 ts pick 100 = some 20 ∧
      timeOfFirstMiss 103 2 ts pick (1 / 10000) = some 20 ∧
      ∃ j, absDeadline ts j = 10 ∧ ∀ σ : Schedule 2, ¬ Completed (simulated ts) σ j 10 := by
  refine ⟨![Task.init 30 100 10, Task.init 25 100 20], firstMin, by decide, firstMin_ok,
    by decide +kernel, by decide +kernel, (0, 0), by decide, ?_⟩
  intro σ h
  unfold Completed at h
  have h2 : service σ (0, 0) 10 ≤ 10 := by
    unfold service
    exact (Finset.card_filter_le _ _).trans (by simp)
  have h3 : (30 : ℕ) ≤ service σ (0, 0) 10 := h
  omega

/-! ### C68: misses of jobs that are still running -/

/-- **C68, negated.**  `no_counter_example` returns `True` for an interval of 8
microseconds although some job misses its deadline 5 whatever the schedule: the
job is still running when the simulation stops. -/
theorem C68_unfinished_job_not_reported :
    ∃ (ts : Fin 2 → Task) (pick : Pick 2), (∀ i, 0 < (ts i).wcet) ∧ PickOk pick ∧
      missesDeadline 11 2 ts pick 8 = some false ∧
      noCounterExample 11 2 ts pick (8 / 1000000) = some true ∧
      ∃ j, absDeadline ts j = 5 ∧ ∀ σ : Schedule 2, ¬ Completed (simulated ts) σ j 5 := by
  refine ⟨![Task.init 10 50 5, Task.init 1 9 100], firstMin, by decide, firstMin_ok,
    by decide +kernel, by decide +kernel, (0, 0), by decide, ?_⟩
  intro σ h
  unfold Completed at h
  have h2 : service σ (0, 0) 5 ≤ 5 := by
    unfold service
    exact (Finset.card_filter_le _ _).trans (by simp)
  have h3 : (10 : ℕ) ≤ service σ (0, 0) 5 := h
  omega

/-- **C68**, what does hold: if `no_counter_example` returns `True`, every job
that finishes within the interval met its deadline, in a legal EDF schedule of
the tasks.  Missing: jobs that are unfinished at the end of the interval. -/
theorem C68_finished_jobs_partial (hm : 1 ≤ m) (hC : ∀ i, 0 < (ts i).wcet) (hpick : PickOk pick)
    (simulationLength : ℚ) (preemptive : Bool) {fuel : ℕ}
    (hf : ⌊simulationLength * 1000000⌋.toNat + 3 ≤ fuel) :
    ∃ b, noCounterExample fuel m ts pick simulationLength preemptive = some b ∧
    (b = false → ¬ EdfSchedulable m (fun i => (ts i).wcet) (fun i => (ts i).period)
      (fun i => (ts i).deadline)) ∧
    (b = true → ∃ σ : Schedule n, ValidSchedule m (simulated ts) σ ∧
      EDF m (simulated ts) (fun i => (ts i).deadline) σ ∧
      ∀ j, Completed (simulated ts) σ j (⌊simulationLength * 1000000⌋.toNat) →
          Completed (simulated ts) σ j (absDeadline ts j)) := by
  obtain ⟨σ, h1, h2, h3⟩ := C47_misses_deadline (ts := ts) hm hC hpick
  obtain ⟨b, hb, -, h5⟩ := h3 _ fuel hf
  refine ⟨!b, ?_, ?_, ?_⟩
  · unfold noCounterExample isDeadlineMissed lengthUs
    rw [hb]; rfl
  · intro hbf
    have : b = true := by simpa using hbf
    rw [this] at hb
    exact C47_sound hm hC hpick hb
  · intro hbt
    exact ⟨σ, h1, h2, h5 (by simpa using hbt)⟩

/-- Non-vacuity: both answers occur. -/
example : let ts : Fin 2 → Task := ![Task.init 2 4 0, Task.init 3 6 0]
    noCounterExample 33 1 ts firstMin (30 / 1000000) = some true ∧
    noCounterExample 33 1 (![Task.init 2 4 0, Task.init 4 6 0] : Fin 2 → Task) firstMin
      (30 / 1000000) = some false :=
  ⟨by decide +kernel, by decide +kernel⟩

/-! ### C69: the argument `preemptive` -/

/-- **C69, negated.**  The Python wrappers ignore `preemptive`: they give the
same answer for both values, although non-preemptive EDF misses a deadline here
and preemptive EDF does not. -/
theorem C69_preemptive_ignored :
    (∀ (n fuel m : ℕ) (ts : Fin n → Task) (pick : Pick n) (len : ℚ),
      isDeadlineMissed fuel m ts pick len false = isDeadlineMissed fuel m ts pick len true ∧
      timeOfFirstMiss fuel m ts pick len false = timeOfFirstMiss fuel m ts pick len true) ∧
    ∃ (ts : Fin 2 → Task) (pick : Pick 2), PickOk pick ∧
      isDeadlineMissed 23 1 ts pick (20 / 1000000) false = some false ∧
      missesDeadline 23 1 ts pick 20 false = some true :=
  ⟨fun _ _ _ _ _ _ => ⟨rfl, rfl⟩,
    ![Task.init 10 100 100, Task.init 1 6 3], firstMin, firstMin_ok,
    by decide +kernel, by decide +kernel⟩

end Verif.EdfSim
