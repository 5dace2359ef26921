/-
The schedule produced by the native G-EDF simulator, slot by slot.
-/
import Verif.Lemmas.EdfSim
import Verif.Lemmas.Schedule
import Verif.Spec.Completion

namespace Verif.EdfSim
open Verif Verif.Native Verif.Spec

variable {n : ℕ}

section
variable (ts : Fin n → Task) (m : ℕ) (pick : Pick n) (pre : Bool)

open Classical in
/-- The state of the simulator in slot `t`, if it never stops. -/
noncomputable def stateAt : ℕ → Sim n
  | 0 => advance ts pick pre 0 (Sim.ready ts m)
  | t + 1 =>
    if ∃ e ∈ (stateAt t).events, e.1 ≤ t + 1 then advance ts pick pre (t + 1) (stateAt t)
    else stateAt t

/-- The jobs on the processors in slot `t`. -/
noncomputable def simSchedule : Schedule n := fun t =>
  (((stateAt ts m pick pre t).procs.filterMap id).map
    (fun i => (i, ((stateAt ts m pick pre t).job i).seqno - 1))).toFinset

structure Inv (t : ℕ) (s : Sim n) : Prop where
  core : Core ts m s
  now : s.now ≤ t
  future : ∀ e ∈ s.events, t < e.1
  closed : ∀ p ∈ s.procs, open_ pre (s.deadline ts) s.pending p = false

end

variable {ts : Fin n → Task} {m : ℕ} {pick : Pick n} {pre : Bool}

theorem inv_stateAt (hpick : PickOk pick) (hC : ∀ i, 0 < (ts i).wcet) :
    ∀ t, Inv ts m pre t (stateAt ts m pick pre t) := by
  intro t
  induction t with
  | zero =>
    obtain ⟨h1, h2, h3, -⟩ := ready_core ts m
    obtain ⟨a, b, c, d, -⟩ := advance_spec hpick pre hC h1 (u := 0) (by rw [h2])
      (fun e he => by rw [h3 e he])
    exact ⟨a, b.le, c, d⟩
  | succ t ih =>
    rw [stateAt]
    split_ifs with h
    · obtain ⟨a, b, c, d, -⟩ := advance_spec hpick pre hC ih.core (u := t + 1)
        (ih.now.trans (by omega)) (fun e he => ih.future e he)
      exact ⟨a, b.le, c, d⟩
    · push Not at h
      exact ⟨ih.core, ih.now.trans (by omega), h, ih.closed⟩

/-- The time for which the current job of task `i` has been served before `t`. -/
def served_ (s : Sim n) (t : ℕ) (i : Fin n) : ℕ :=
  (s.job i).allocation + (if some i ∈ s.procs then t - s.now else 0)

theorem Inv.place {t : ℕ} {s : Sim n} (h : Inv ts m pre t s) (i : Fin n) :
    (∃ e ∈ s.events, e.2 = some i) ∨ i ∈ s.pending ∨ some i ∈ s.procs := by
  have : i ∈ s.events.filterMap Prod.snd ++ (s.pending ++ s.procs.filterMap id) :=
    h.core.perm.mem_iff.2 (List.mem_finRange i)
  rw [List.mem_append, List.mem_append, mem_filterMap_id, List.mem_filterMap] at this
  exact this

theorem Inv.notOverrun {t : ℕ} {s : Sim n} (hC : ∀ i, 0 < (ts i).wcet) (h : Inv ts m pre t s)
    (i : Fin n) : served_ s t i < (ts i).wcet := by
  unfold served_
  rw [← h.core.cost i]
  split_ifs with hr
  · obtain ⟨e, he, heq⟩ := h.core.wakeup i hr
    have h1 := h.future e he
    have h2 := (h.core.active i (List.mem_append.2 (Or.inr (mem_filterMap_id.2 hr)))).2
    rw [heq] at h1
    unfold Job.remainingDemand at h1
    have := h.now
    omega
  · rcases h.place i with ⟨e, he, hei⟩ | hp | hp
    · rw [(h.core.waiting e he i hei).2, h.core.cost]; exact hC i
    · exact (h.core.active i (List.mem_append.2 (Or.inl hp))).2
    · exact absurd hp hr

/-- What happens to the current job of task `i` from slot `t` to slot `t + 1`. -/
theorem step_job (hpick : PickOk pick) (hC : ∀ i, 0 < (ts i).wcet) (t : ℕ) (i : Fin n) :
    let s := stateAt ts m pick pre t
    let s' := stateAt ts m pick pre (t + 1)
    if some i ∈ s.procs then
      if served_ s t i + 1 = (ts i).wcet then
        (s'.job i).seqno = (s.job i).seqno + 1 ∧ served_ s' (t + 1) i = 0
      else (s'.job i).seqno = (s.job i).seqno ∧ served_ s' (t + 1) i = served_ s t i + 1
    else (s'.job i).seqno = (s.job i).seqno ∧ served_ s' (t + 1) i = served_ s t i := by
  intro s s'
  have hi : Inv ts m pre t s := inv_stateAt hpick hC t
  have hs1 : (∃ e ∈ s.events, e.1 ≤ t + 1) → s' = advance ts pick pre (t + 1) s := by
    intro h
    show stateAt ts m pick pre (t + 1) = _
    rw [stateAt, if_pos h]
  have hs2 : (¬ ∃ e ∈ s.events, e.1 ≤ t + 1) → s' = s := by
    intro h
    show stateAt ts m pick pre (t + 1) = _
    rw [stateAt, if_neg h]
  clear_value s s'
  have hlt := hi.notOverrun hC i
  have hnow := hi.now
  have hc := hi.core.cost i
  by_cases hev : ∃ e ∈ s.events, e.1 ≤ t + 1
  · have hs' := hs1 hev
    obtain ⟨-, b, -, -, hj, -⟩ := advance_spec hpick pre hC hi.core (u := t + 1)
      (hnow.trans (by omega)) (fun e he => hi.future e he)
    rw [← hs'] at b hj
    have hs'i : served_ s' (t + 1) i = (s'.job i).allocation := by
      unfold served_; rw [b]; simp
    rw [hs'i, hj]
    split_ifs with hr hw
    · have : (s.job i).cost ≤ (s.job i).allocation + (t + 1 - s.now) := by
        unfold served_ at hw; rw [if_pos hr] at hw
        omega
      have e : served ts (t + 1 - s.now) s.procs s i = (s.job i).initNext (ts i) := by
        unfold served; rw [if_pos hr, if_pos this]
      rw [e]; exact ⟨rfl, rfl⟩
    · have : ¬ (s.job i).cost ≤ (s.job i).allocation + (t + 1 - s.now) := by
        unfold served_ at hw hlt; rw [if_pos hr] at hw hlt
        omega
      have e : served ts (t + 1 - s.now) s.procs s i =
          { s.job i with allocation := (s.job i).allocation + (t + 1 - s.now) } := by
        unfold served; rw [if_pos hr, if_neg this]
      rw [e]
      refine ⟨rfl, ?_⟩
      unfold served_; rw [if_pos hr]
      show (s.job i).allocation + (t + 1 - s.now) = _
      omega
    · have e : served ts (t + 1 - s.now) s.procs s i = s.job i := by
        unfold served; rw [if_neg hr]
      rw [e]
      refine ⟨rfl, ?_⟩
      unfold served_; rw [if_neg hr]; rfl
  · have hs' := hs2 hev
    rw [hs']
    push Not at hev
    split_ifs with hr hw
    · exfalso
      obtain ⟨e, he, heq⟩ := hi.core.wakeup i hr
      have h1 := hev e he
      rw [heq] at h1
      unfold Job.remainingDemand at h1
      unfold served_ at hw; rw [if_pos hr] at hw
      omega
    · refine ⟨rfl, ?_⟩
      unfold served_; rw [if_pos hr, if_pos hr]
      omega
    · refine ⟨rfl, ?_⟩
      unfold served_; rw [if_neg hr, if_neg hr]

theorem mem_simSchedule {t : ℕ} {i : Fin n} {k : ℕ} :
    (i, k) ∈ simSchedule ts m pick pre t ↔ some i ∈ (stateAt ts m pick pre t).procs ∧
      ((stateAt ts m pick pre t).job i).seqno - 1 = k := by
  unfold simSchedule
  rw [List.mem_toFinset, List.mem_map]
  constructor
  · rintro ⟨j, hj, he⟩
    rw [Prod.mk.injEq] at he
    obtain ⟨rfl, hk⟩ := he
    exact ⟨mem_filterMap_id.1 hj, hk⟩
  · rintro ⟨h1, h2⟩
    exact ⟨i, mem_filterMap_id.2 h1, by rw [h2]⟩

theorem seqno_pos (hpick : PickOk pick) (hC : ∀ i, 0 < (ts i).wcet) (t : ℕ) (i : Fin n) :
    1 ≤ ((stateAt ts m pick pre t).job i).seqno :=
  (inv_stateAt hpick hC t).core.seqno i

theorem service_sim (hpick : PickOk pick) (hC : ∀ i, 0 < (ts i).wcet) (i : Fin n) (k : ℕ) :
    ∀ t, service (simSchedule ts m pick pre) (i, k) t =
      if k + 1 < ((stateAt ts m pick pre t).job i).seqno then (ts i).wcet
      else if k + 1 = ((stateAt ts m pick pre t).job i).seqno then
        served_ (stateAt ts m pick pre t) t i
      else 0 := by
  intro t
  induction t with
  | zero =>
    obtain ⟨h1, h2, h3, -, -, hpr, hj⟩ := ready_core ts m
    obtain ⟨-, b, -, -, hj', -⟩ := advance_spec hpick pre hC h1 (u := 0) (by rw [h2])
      (fun e he => by rw [h3 e he])
    have e : (stateAt ts m pick pre 0).job i = Job.init (ts i) := by
      rw [stateAt, hj']
      unfold served
      rw [if_neg (fun hc => by have := hpr _ hc; simp at this), hj]
    have e2 : served_ (stateAt ts m pick pre 0) 0 i = 0 := by
      unfold served_; rw [e]; simp [Job.init]
    rw [e2, e]
    simp [service, Job.init]
  | succ t ih =>
    have hst := step_job (m := m) (pre := pre) hpick hC t i
    have hlt := (inv_stateAt (m := m) (pre := pre) hpick hC t).notOverrun hC i
    have hpos := seqno_pos (m := m) (pre := pre) hpick hC t i
    have hmem : (if (i, k) ∈ simSchedule ts m pick pre t then 1 else 0) =
        if some i ∈ (stateAt ts m pick pre t).procs then
          (if ((stateAt ts m pick pre t).job i).seqno - 1 = k then 1 else 0) else 0 := by
      simp only [mem_simSchedule, ite_and]
    rw [service_succ, ih, hmem]
    simp only at hst
    split_ifs at hst <;> obtain ⟨e1, e2⟩ := hst <;> rw [e1, e2] <;> split_ifs <;> omega

theorem completed_sim (hpick : PickOk pick) (hC : ∀ i, 0 < (ts i).wcet) (i : Fin n) (k t : ℕ) :
    Completed (periodic (fun i => (ts i).wcet) (fun i => (ts i).period))
      (simSchedule ts m pick pre) (i, k) t ↔
      k + 1 < ((stateAt ts m pick pre t).job i).seqno := by
  unfold Completed
  rw [service_sim hpick hC]
  have hlt := (inv_stateAt (m := m) (pre := pre) hpick hC t).notOverrun hC i
  have := hC i
  show (ts i).wcet ≤ _ ↔ _
  split_ifs <;> omega

theorem ready_sim (hpick : PickOk pick) (hC : ∀ i, 0 < (ts i).wcet) (i : Fin n) (k t : ℕ) :
    Ready (periodic (fun i => (ts i).wcet) (fun i => (ts i).period))
      (simSchedule ts m pick pre) (i, k) t ↔
      k + 1 = ((stateAt ts m pick pre t).job i).seqno ∧ k * (ts i).period ≤ t := by
  unfold Ready Pending
  simp only [completed_sim hpick hC]
  show (k * (ts i).period ≤ t ∧ _) ∧ _ ↔ _
  have hpos := seqno_pos (m := m) (pre := pre) hpick hC t i
  constructor
  · rintro ⟨⟨h1, h2⟩, h3⟩
    refine ⟨?_, h1⟩
    rcases Nat.eq_zero_or_pos k with rfl | hk
    · omega
    · have := h3 (k - 1) (by omega)
      omega
  · rintro ⟨h1, h2⟩
    exact ⟨⟨h2, by omega⟩, fun k' hk' => by omega⟩

theorem valid_sim (hpick : PickOk pick) (hC : ∀ i, 0 < (ts i).wcet) :
    ValidSchedule m (periodic (fun i => (ts i).wcet) (fun i => (ts i).period))
      (simSchedule ts m pick pre) := by
  refine ⟨fun t => ?_, ?_⟩
  · have hi := inv_stateAt (m := m) (pre := pre) hpick hC t
    unfold simSchedule
    refine (List.toFinset_card_le _).trans ?_
    rw [List.length_map]
    exact (List.length_filterMap_le _ _).trans hi.core.length.le
  · rintro t ⟨i, k⟩ hj
    have hi := inv_stateAt (m := m) (pre := pre) hpick hC t
    have hpos := seqno_pos (m := m) (pre := pre) hpick hC t i
    rw [mem_simSchedule] at hj
    rw [ready_sim hpick hC]
    refine ⟨by omega, ?_⟩
    have := (hi.core.active i (List.mem_append.2 (Or.inr (mem_filterMap_id.2 hj.1)))).1
    rw [hi.core.release i, hj.2] at this
    exact this.trans hi.now

/-- A job that has to wait is in the queue. -/
theorem waiting_sim (hpick : PickOk pick) (hC : ∀ i, 0 < (ts i).wcet) {i : Fin n} {k t : ℕ}
    (hr : Ready (periodic (fun i => (ts i).wcet) (fun i => (ts i).period))
      (simSchedule ts m pick pre) (i, k) t) (hn : (i, k) ∉ simSchedule ts m pick pre t) :
    i ∈ (stateAt ts m pick pre t).pending := by
  have hi := inv_stateAt (m := m) (pre := pre) hpick hC t
  rw [ready_sim hpick hC] at hr
  rw [mem_simSchedule] at hn
  rcases hi.place i with ⟨e, he, hei⟩ | hp | hp
  · exfalso
    have h1 := hi.future e he
    have h2 := (hi.core.waiting e he i hei).1
    rw [h2, hi.core.release i, ← hr.1, Nat.add_sub_cancel] at h1
    omega
  · exact hp
  · exact absurd ⟨hp, by omega⟩ hn

theorem card_sim (hpick : PickOk pick) (hC : ∀ i, 0 < (ts i).wcet) {t : ℕ}
    (h : ∀ p ∈ (stateAt ts m pick pre t).procs, p ≠ none) :
    (simSchedule ts m pick pre t).card = m := by
  have hi := inv_stateAt (m := m) (pre := pre) hpick hC t
  have hnd := hi.core.nodup
  rw [List.nodup_append, List.nodup_append] at hnd
  unfold simSchedule
  rw [List.toFinset_card_of_nodup, List.length_map]
  · have : ∀ l : List (Option (Fin n)), (∀ p ∈ l, p ≠ none) → (l.filterMap id).length = l.length := by
      intro l
      induction l with
      | nil => intro _; rfl
      | cons a as ih =>
        intro h
        cases a with
        | none => exact absurd rfl (h none (by simp))
        | some x =>
          have e : (some x :: as).filterMap id = x :: as.filterMap id := rfl
          rw [e, List.length_cons, List.length_cons, ih (fun p hp => h p (by simp [hp]))]
    exact (this _ h).trans hi.core.length
  · exact hnd.2.1.2.1.map (fun a b hab => by simpa using congrArg Prod.fst hab)

/-- No processor idles while a job waits. -/
theorem conserving_sim (hpick : PickOk pick) (hC : ∀ i, 0 < (ts i).wcet) {i : Fin n} {k t : ℕ}
    (hr : Ready (periodic (fun i => (ts i).wcet) (fun i => (ts i).period))
      (simSchedule ts m pick pre) (i, k) t) (hn : (i, k) ∉ simSchedule ts m pick pre t) :
    (simSchedule ts m pick pre t).card = m := by
  have hw := waiting_sim hpick hC hr hn
  have hi := inv_stateAt (m := m) (pre := pre) hpick hC t
  refine card_sim hpick hC (fun p hp hpn => ?_)
  have := hi.closed p hp
  rw [hpn] at this
  unfold open_ at this
  rw [Option.isNone_none, Bool.true_or, Bool.true_and, List.any_eq_false] at this
  exact this i hw rfl

theorem edf_sim (hpick : PickOk pick) (hC : ∀ i, 0 < (ts i).wcet) :
    EDF m (periodic (fun i => (ts i).wcet) (fun i => (ts i).period)) (fun i => (ts i).deadline)
      (simSchedule ts m pick true) := by
  rintro t ⟨i, k⟩ hr hn
  refine ⟨conserving_sim hpick hC hr hn, ?_⟩
  rintro ⟨j, l⟩ hj
  have hw := waiting_sim hpick hC hr hn
  have hi := inv_stateAt (m := m) (pre := true) hpick hC t
  rw [mem_simSchedule] at hj
  rw [ready_sim hpick hC] at hr
  have := hi.closed _ hj.1
  unfold open_ at this
  rw [Bool.or_true, Bool.true_and, List.any_eq_false] at this
  have := this i hw
  simp only [lowerPrio, decide_eq_true_eq, not_lt] at this
  unfold Sim.deadline at this
  rw [hi.core.release, hi.core.release, hj.2, ← hr.1, Nat.add_sub_cancel] at this
  exact this

/-! ### Completions -/

theorem FinishesAt.unique {w : Workload n} {σ : Schedule n} {j : Spec.Job n} {t u : ℕ}
    (h1 : FinishesAt w σ j t) (h2 : FinishesAt w σ j u) : t = u := by
  rcases lt_trichotomy t u with h | h | h
  · exact absurd h1.1 (h2.2 t h)
  · exact h
  · exact absurd h2.1 (h1.2 u h)

/-- What is known of the calls of `job_completed` up to slot `t`. -/
structure CallsOk (ts : Fin n → Task) (σ : Schedule n) (t : ℕ) (s : Sim n) : Prop where
  sound : ∀ c ∈ s.calls, 1 ≤ c.seqno ∧ c.deadline = (c.seqno - 1) * (ts c.task).period +
    (ts c.task).deadline ∧ c.now ≤ t ∧
    FinishesAt (periodic (fun i => (ts i).wcet) (fun i => (ts i).period)) σ
      (c.task, c.seqno - 1) c.now
  complete : ∀ i k, k + 1 < (s.job i).seqno → ∃ c ∈ s.calls, c.task = i ∧ c.seqno = k + 1
  nodup : (s.calls.map (fun c => (c.task, c.seqno))).Nodup
  sorted : (s.calls.map Call.now).Pairwise (· ≤ ·)

theorem calls_sim (hpick : PickOk pick) (hC : ∀ i, 0 < (ts i).wcet) :
    ∀ t, CallsOk ts (simSchedule ts m pick pre) t (stateAt ts m pick pre t) := by
  intro t
  induction t with
  | zero =>
    obtain ⟨h1, h2, h3, hcalls, -, hpr, hj⟩ := ready_core ts m
    obtain ⟨-, b, -, -, hj', hc'⟩ := advance_spec hpick pre hC h1 (u := 0) (by rw [h2])
      (fun e he => by rw [h3 e he])
    have hfin : finished (0 - (Sim.ready ts m).now) (Sim.ready ts m).procs (Sim.ready ts m) = [] := by
      rw [List.eq_nil_iff_forall_not_mem]
      intro i hi
      unfold finished at hi
      have := hpr _ (mem_filterMap_id.1 (List.mem_filter.1 hi).1)
      simp at this
    have e0 : (stateAt ts m pick pre 0).calls = [] := by
      rw [stateAt, hc', hcalls, hfin]; rfl
    refine ⟨?_, ?_, ?_, ?_⟩
    · rw [e0]; simp
    · intro i k hk
      have e : (stateAt ts m pick pre 0).job i = Job.init (ts i) := by
        rw [stateAt, hj']
        unfold served
        rw [if_neg (fun hc => by have := hpr _ hc; simp at this), hj]
      rw [e] at hk
      simp [Job.init] at hk
    · rw [e0]; simp
    · rw [e0]; simp
  | succ t ih =>
    have hi := inv_stateAt (m := m) (pre := pre) hpick hC t
    by_cases hev : ∃ e ∈ (stateAt ts m pick pre t).events, e.1 ≤ t + 1
    · have hs' : stateAt ts m pick pre (t + 1) =
          advance ts pick pre (t + 1) (stateAt ts m pick pre t) := by rw [stateAt, if_pos hev]
      obtain ⟨-, -, -, -, hj, hc⟩ := advance_spec hpick pre hC hi.core (u := t + 1)
        (hi.now.trans (by omega)) (fun e he => hi.future e he)
      rw [← hs'] at hj hc
      set s := stateAt ts m pick pre t with hs
      set s' := stateAt ts m pick pre (t + 1) with hs''
      set F := finished (t + 1 - s.now) s.procs s with hF
      have fin_job : ∀ i ∈ F, s'.job i = (s.job i).initNext (ts i) := by
        intro i hiF
        rw [hF] at hiF
        unfold finished at hiF
        rw [List.mem_filter, mem_filterMap_id, decide_eq_true_eq] at hiF
        rw [hj]
        unfold served
        rw [if_pos hiF.1, if_pos hiF.2]
      have keep : ∀ i, i ∉ F → (s'.job i).seqno = (s.job i).seqno := by
        intro i hiF
        rw [hF] at hiF
        unfold finished at hiF
        rw [List.mem_filter, mem_filterMap_id, decide_eq_true_eq] at hiF
        rw [hj]
        unfold served
        split_ifs with a b
        · exact absurd ⟨a, b⟩ hiF
        · rfl
        · rfl
      have old_lt : ∀ c ∈ s.calls, c.seqno < (s.job c.task).seqno := by
        intro c hcs
        obtain ⟨h1, -, h3, h4⟩ := ih.sound c hcs
        have := (completed_sim hpick hC c.task (c.seqno - 1) t).1 (h4.1.mono h3)
        rw [← hs] at this
        omega
      refine ⟨?_, ?_, ?_, ?_⟩
      · intro c hcc
        rw [hc, List.mem_append] at hcc
        rcases hcc with hcc | hcc
        · obtain ⟨h1, h2, h3, h4⟩ := ih.sound c hcc
          exact ⟨h1, h2, h3.trans (by omega), h4⟩
        · obtain ⟨i, hiF, rfl⟩ := List.mem_map.1 hcc
          have hpos := hi.core.seqno i
          refine ⟨hpos, ?_, le_rfl, ?_, ?_⟩
          · simp only [Sim.deadline]
            rw [hi.core.release i]
          · rw [completed_sim hpick hC, ← hs'', fin_job i hiF]
            simp only [Job.initNext]
            omega
          · intro u hu hcu
            have := (completed_sim hpick hC _ _ t).1 (hcu.mono (by simp only at hu; omega))
            simp only at this
            rw [← hs] at this
            omega
      · intro i k hk
        by_cases hiF : i ∈ F
        · rw [fin_job i hiF] at hk
          simp only [Job.initNext] at hk
          by_cases hk' : k + 1 < (s.job i).seqno
          · obtain ⟨c, hcs, h1⟩ := ih.complete i k hk'
            exact ⟨c, by rw [hc]; simp [hcs], h1⟩
          · refine ⟨⟨i, (s.job i).seqno, s.deadline ts i, t + 1⟩, ?_, rfl, ?_⟩
            · rw [hc, List.mem_append]; right
              exact List.mem_map.2 ⟨i, hiF, rfl⟩
            · simp only; omega
        · rw [keep i hiF] at hk
          obtain ⟨c, hcs, h1⟩ := ih.complete i k hk
          exact ⟨c, by rw [hc]; simp [hcs], h1⟩
      · rw [hc, List.map_append, List.nodup_append]
        refine ⟨ih.nodup, ?_, ?_⟩
        · rw [List.map_map]
          have hnd := hi.core.nodup
          rw [List.nodup_append, List.nodup_append] at hnd
          refine List.Nodup.map ?_ (hnd.2.1.2.1.filter _)
          intro a b hab
          exact congrArg Prod.fst hab
        · intro a ha b hb hab
          obtain ⟨c, hcs, rfl⟩ := List.mem_map.1 ha
          obtain ⟨c', hcs', rfl⟩ := List.mem_map.1 hb
          obtain ⟨i, hiF, rfl⟩ := List.mem_map.1 hcs'
          have := old_lt c hcs
          simp only [Prod.mk.injEq] at hab
          rw [hab.1, hab.2] at this
          exact lt_irrefl _ this
      · rw [hc, List.map_append, List.pairwise_append]
        refine ⟨ih.sorted, ?_, ?_⟩
        · rw [List.map_map]
          exact List.Pairwise.map _ (R := fun _ _ => True) (fun _ _ _ => le_rfl)
            (List.pairwise_of_forall (fun _ _ => trivial))
        · intro a ha b hb
          obtain ⟨c, hcs, rfl⟩ := List.mem_map.1 ha
          obtain ⟨c', hcs', rfl⟩ := List.mem_map.1 hb
          obtain ⟨i, hiF, rfl⟩ := List.mem_map.1 hcs'
          have := (ih.sound c hcs).2.2.1
          simp only
          omega
    · have hs' : stateAt ts m pick pre (t + 1) = stateAt ts m pick pre t := by
        rw [stateAt, if_neg hev]
      rw [hs']
      refine ⟨?_, ih.complete, ih.nodup, ih.sorted⟩
      intro c hcc
      obtain ⟨h1, h2, h3, h4⟩ := ih.sound c hcc
      exact ⟨h1, h2, h3.trans (by omega), h4⟩

/-! ### The loop -/

theorem stateAt_const (t : ℕ) : ∀ d, (∀ e ∈ (stateAt ts m pick pre t).events, t + d < e.1) →
    stateAt ts m pick pre (t + d) = stateAt ts m pick pre t := by
  intro d
  induction d with
  | zero => intro _; rfl
  | succ d ih =>
    intro h
    have e := ih (fun e he => by have := h e he; omega)
    rw [← Nat.add_assoc, stateAt, e, if_neg]
    push Not
    intro a ha
    have := h a ha
    omega

theorem nextEvent_sim (hpick : PickOk pick) (hC : ∀ i, 0 < (ts i).wcet) {t u : ℕ}
    (h : (stateAt ts m pick pre t).nextEvent = some u) :
    t < u ∧ advance ts pick pre u (stateAt ts m pick pre t) = stateAt ts m pick pre u ∧
    ∀ v, t ≤ v → v < u → stateAt ts m pick pre v = stateAt ts m pick pre t := by
  have hi := inv_stateAt (m := m) (pre := pre) hpick hC t
  unfold Sim.nextEvent at h
  rw [List.min?_eq_some_iff] at h
  obtain ⟨hmem, hmin⟩ := h
  obtain ⟨e, he, rfl⟩ := List.mem_map.1 hmem
  have hlt := hi.future e he
  have hle : ∀ e' ∈ (stateAt ts m pick pre t).events, e.1 ≤ e'.1 :=
    fun e' he' => hmin _ (List.mem_map.2 ⟨e', he', rfl⟩)
  have hconst : ∀ v, t ≤ v → v < e.1 → stateAt ts m pick pre v = stateAt ts m pick pre t := by
    intro v h1 h2
    obtain ⟨d, rfl⟩ := Nat.exists_eq_add_of_le h1
    exact stateAt_const t d (fun e' he' => h2.trans_le (hle e' he'))
  refine ⟨hlt, ?_, hconst⟩
  obtain ⟨v, hv⟩ : ∃ v, e.1 = v + 1 := ⟨e.1 - 1, by omega⟩
  have hcv := hconst v (by omega) (by omega)
  rw [hv, stateAt, hcv, if_pos ⟨e, he, by omega⟩]

theorem now_sim (hpick : PickOk pick) (hC : ∀ i, 0 < (ts i).wcet) {t u : ℕ}
    (h : (stateAt ts m pick pre t).nextEvent = some u) :
    (stateAt ts m pick pre u).now = u := by
  have hi := inv_stateAt (m := m) (pre := pre) hpick hC t
  obtain ⟨h1, h2, -⟩ := nextEvent_sim hpick hC h
  unfold Sim.nextEvent at h
  rw [List.min?_eq_some_iff] at h
  rw [← h2]
  exact (advance_spec hpick pre hC hi.core (hi.now.trans h1.le)
    (fun e' he' => h.2 _ (List.mem_map.2 ⟨e', he', rfl⟩))).2.1

theorem simulate_sim (hpick : PickOk pick) (hC : ∀ i, 0 < (ts i).wcet)
    (aborted : List (Call n) → Bool) (end_ : ℕ) : ∀ (fuel t : ℕ) (s : Sim n),
    (stateAt ts m pick pre t).now = t →
    simulateUntil ts pick pre aborted end_ fuel (stateAt ts m pick pre t) = some s →
    ∃ u, t ≤ u ∧ s = stateAt ts m pick pre u ∧
      (end_ < u ∨ aborted s.calls = true ∨ s.events = []) ∧
      ∀ v, t ≤ v → v < u → aborted (stateAt ts m pick pre v).calls = false := by
  intro fuel
  induction fuel with
  | zero => intro t s _ h; simp [simulateUntil] at h
  | succ fuel ih =>
    intro t s hnow h
    rw [simulateUntil] at h
    by_cases hc : (stateAt ts m pick pre t).now ≤ end_ ∧
        aborted (stateAt ts m pick pre t).calls = false
    · rw [if_pos hc] at h
      cases hne : (stateAt ts m pick pre t).nextEvent with
      | none =>
        rw [hne] at h
        simp only [Option.some.injEq] at h
        refine ⟨t, le_rfl, h.symm, Or.inr (Or.inr ?_), fun v h1 h2 => by omega⟩
        rw [← h]
        unfold Sim.nextEvent at hne
        rw [List.min?_eq_none_iff, List.map_eq_nil_iff] at hne
        exact hne
      | some u =>
        rw [hne] at h
        simp only at h
        obtain ⟨h1, h2, h3⟩ := nextEvent_sim hpick hC hne
        rw [h2] at h
        obtain ⟨x, hx1, hx2, hx3, hx4⟩ := ih u s (now_sim hpick hC hne) h
        refine ⟨x, by omega, hx2, hx3, fun v hv1 hv2 => ?_⟩
        by_cases hvu : v < u
        · rw [h3 v hv1 hvu]; exact hc.2
        · exact hx4 v (by omega) hv2
    · rw [if_neg hc] at h
      simp only [Option.some.injEq] at h
      refine ⟨t, le_rfl, h.symm, ?_, fun v h1 h2 => by omega⟩
      rw [not_and_or, hnow, not_le, Bool.not_eq_false] at hc
      rw [← h]
      tauto

theorem simulate_ends (hpick : PickOk pick) (hC : ∀ i, 0 < (ts i).wcet)
    (aborted : List (Call n) → Bool) (end_ : ℕ) : ∀ (fuel t : ℕ),
    (stateAt ts m pick pre t).now = t → end_ + 2 ≤ fuel + t → 1 ≤ fuel →
    (simulateUntil ts pick pre aborted end_ fuel (stateAt ts m pick pre t)).isSome := by
  intro fuel
  induction fuel with
  | zero => intro t _ _ h; omega
  | succ fuel ih =>
    intro t hnow hf _
    rw [simulateUntil]
    split_ifs with hc
    · cases hne : (stateAt ts m pick pre t).nextEvent with
      | none => rfl
      | some u =>
        simp only
        obtain ⟨h1, h2, h3⟩ := nextEvent_sim hpick hC hne
        rw [h2]
        rw [hnow] at hc
        exact ih u (now_sim hpick hC hne) (by omega) (by omega)
    · rfl

/-- There is always something to come. -/
theorem events_sim (hm : 1 ≤ m) (hn : 0 < n) (hpick : PickOk pick) (hC : ∀ i, 0 < (ts i).wcet)
    (t : ℕ) : (stateAt ts m pick pre t).events ≠ [] := by
  intro he
  have hi := inv_stateAt (m := m) (pre := pre) hpick hC t
  have hrun : ∀ i, some i ∉ (stateAt ts m pick pre t).procs := by
    intro i hr
    obtain ⟨e, hee, -⟩ := hi.core.wakeup i hr
    rw [he] at hee; simp at hee
  rcases hi.place ⟨0, hn⟩ with ⟨e, hee, -⟩ | hp | hp
  · rw [he] at hee; simp at hee
  · have hl := hi.core.length
    cases hps : (stateAt ts m pick pre t).procs with
    | nil => rw [hps] at hl; simp at hl; omega
    | cons p ps =>
      have hmem : p ∈ (stateAt ts m pick pre t).procs := by rw [hps]; simp
      cases p with
      | some i => exact hrun i hmem
      | none =>
        have := hi.closed none hmem
        unfold open_ at this
        rw [Option.isNone_none, Bool.true_or, Bool.true_and, List.any_eq_false] at this
        exact this _ hp rfl
  · exact hrun _ hp

theorem ready_next (hn : 0 < n) : (Sim.ready ts m).nextEvent = some 0 := by
  obtain ⟨h1, h2, h3, -, h5, h6, -⟩ := ready_core ts m
  unfold Sim.nextEvent
  rw [List.min?_eq_some_iff]
  refine ⟨?_, fun b _ => Nat.zero_le b⟩
  have : (⟨0, hn⟩ : Fin n) ∈ (Sim.ready ts m).events.filterMap Prod.snd ++
      ((Sim.ready ts m).pending ++ (Sim.ready ts m).procs.filterMap id) :=
    h1.perm.mem_iff.2 (List.mem_finRange _)
  rw [List.mem_append, List.mem_append, h5, mem_filterMap_id] at this
  rcases this with h | h | h
  · obtain ⟨e, he, -⟩ := List.mem_filterMap.1 h
    exact List.mem_map.2 ⟨e, he, h3 e he⟩
  · simp at h
  · have := h6 _ h; simp at this

/-- A whole run. -/
theorem run_sim (hm : 1 ≤ m) (hpick : PickOk pick) (hC : ∀ i, 0 < (ts i).wcet)
    (aborted : List (Call n) → Bool) (ha : aborted [] = false) (end_ fuel : ℕ)
    (hf : end_ + 3 ≤ fuel) :
    ∃ s u, simulateUntil ts pick pre aborted end_ fuel (Sim.ready ts m) = some s ∧
      s.calls = (stateAt ts m pick pre u).calls ∧ (end_ < u ∨ aborted s.calls = true) ∧
      ∀ v < u, aborted (stateAt ts m pick pre v).calls = false := by
  obtain ⟨h1, h2, h3, h4, -⟩ := ready_core ts m
  obtain ⟨f, rfl⟩ : ∃ f, fuel = f + 1 := ⟨fuel - 1, by omega⟩
  rcases Nat.eq_zero_or_pos n with rfl | hn
  · have hnil : ∀ l : List (Call 0), l = [] := by
      intro l
      cases l with
      | nil => rfl
      | cons c _ => exact c.task.elim0
    have hev : (Sim.ready ts m).nextEvent = none := by
      unfold Sim.nextEvent
      rw [List.min?_eq_none_iff, List.map_eq_nil_iff]
      rfl
    refine ⟨Sim.ready ts m, end_ + 1, ?_, ?_, Or.inl (by omega), fun v _ => ?_⟩
    · rw [simulateUntil, h2, h4, if_pos ⟨Nat.zero_le _, ha⟩, hev]
    · rw [hnil (Sim.ready ts m).calls, hnil (stateAt ts m pick pre _).calls]
    · rw [hnil (stateAt ts m pick pre v).calls]; exact ha
  · have e0 : simulateUntil ts pick pre aborted end_ (f + 1) (Sim.ready ts m) =
        simulateUntil ts pick pre aborted end_ f (stateAt ts m pick pre 0) := by
      rw [simulateUntil, h2, h4, if_pos ⟨Nat.zero_le _, ha⟩, ready_next hn]
      rfl
    rw [e0]
    have hn0 : (stateAt ts m pick pre 0).now = 0 :=
      Nat.le_zero.1 (inv_stateAt (m := m) (pre := pre) hpick hC 0).now
    have hs := simulate_ends hpick hC aborted end_ f 0 hn0 (by omega) (by omega)
    obtain ⟨s, hs⟩ := Option.isSome_iff_exists.1 hs
    obtain ⟨u, -, hu, hor, hv⟩ := simulate_sim hpick hC aborted end_ f 0 s hn0 hs
    refine ⟨s, u, hs, by rw [hu], ?_, fun v h => hv v (Nat.zero_le _) h⟩
    rcases hor with h | h | h
    · exact Or.inl h
    · exact Or.inr h
    · rw [hu] at h
      exact absurd h (events_sim hm hn hpick hC u)

end Verif.EdfSim
